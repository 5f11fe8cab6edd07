import Verif.BagAttr.Batch
/-
Merging one dense source into another.
-/

namespace Verif.BagAttr

/-! ### One element -/

theorem Same.refl (a : Item) : Same a a := by
  cases a with
  | none => trivial
  | some x =>
    cases h : x.nan with
    | true => exact .inr ⟨h, h⟩
    | false => exact .inl ⟨rfl, rfl, h, h⟩

theorem Same.symm {a b : Item} (h : Same a b) : Same b a := by
  cases a with
  | none => cases b with
    | none => trivial
    | some y => exact h
  | some x => cases b with
    | none => exact h
    | some y =>
      rcases h with ⟨h1, h2, h3, h4⟩ | ⟨h1, h2⟩
      · exact .inl ⟨h1.symm, h2.symm, h4, h3⟩
      · exact .inr ⟨h2, h1⟩

theorem StrictSame.refl (a : Item) : StrictSame a a := by
  refine ⟨Same.refl a, ?_⟩
  intro x y h1 h2
  rw [h1] at h2
  rw [Option.some.inj h2]

theorem StrictSame.symm {a b : Item} (h : StrictSame a b) : StrictSame b a :=
  ⟨h.1.symm, fun x y h1 h2 => (h.2 y x h2 h1).symm⟩

theorem Conflict.symm {a b : Cell} (h : Conflict a b) : Conflict b a := by
  obtain ⟨x, y, h1, h2, h3⟩ := h
  exact ⟨y, x, h2, h1, fun h => h3 h.symm⟩

theorem differ_false {x y : Val} (h : (!(x.eq y || (x.nan && y.nan))) = false) :
    Same (some x) (some y) := by
  unfold Val.eq at h
  show (_ ∧ _) ∨ _
  cases hx : x.nan <;> cases hy : y.nan <;> simp [hx, hy] at h ⊢
  exact h

theorem differ_true {x y : Val} (h : (!(x.eq y || (x.nan && y.nan))) = true) :
    ¬ Same (some x) (some y) := by
  unfold Val.eq at h
  rintro (⟨h1, h2, h3, h4⟩ | ⟨h1, h2⟩)
  · simp [h1, h2, h3, h4] at h
  · simp [h1, h2] at h

theorem itemsDiffer_false {x y : Item} (h : itemsDiffer x y = false) : Same x y := by
  cases x with
  | none => cases y with
    | none => trivial
    | some _ => cases h
  | some x => cases y with
    | none => cases h
    | some y => exact differ_false h

theorem itemsDiffer_true {x y : Item} (h : itemsDiffer x y = true) : ¬ Same x y := by
  cases x with
  | none => cases y with
    | none => cases h
    | some _ => exact id
  | some x => cases y with
    | none => exact id
    | some y => exact differ_true h

theorem Merged.refl (p : Policy) (t : Cell) : Merged p t t t := by
  cases t with
  | none => rfl
  | some x =>
    cases p with
    | overwrite => rfl
    | keep => rfl
    | raise => exact ⟨Same.refl x, .inl rfl⟩

theorem Merged.reverse {p : Policy} {t o r : Cell} (h : Merged p.reverse o t r) :
    Merged p t o r := by
  cases t with
  | none =>
    cases o with
    | none => exact h
    | some o => exact h
  | some t =>
    cases o with
    | none => exact h
    | some o =>
      cases p with
      | overwrite => exact h
      | keep => exact h
      | raise => exact ⟨h.1.symm, h.2.symm⟩

/-- The outcome of merging one element. -/
def CellOutcome (p : Policy) (t o : Cell) : Except Err Cell → Prop
  | .ok r => Merged p t o r
  | .error e => e = .conflict ∧ p = .raise ∧ Conflict t o

theorem multiMergeCell_ok (p : Policy) (t o : Cell) :
    CellOutcome p t o (multiMergeCell p true t o) := by
  have hc : ∀ x y : Item, ¬ Same x y → Conflict (some x) (some y) :=
    fun x y h => ⟨x, y, rfl, rfl, fun h' => h h'.1⟩
  match o with
  | none =>
    cases t <;> exact rfl
  | some none =>
    match p, t with
    | .overwrite, none => rfl
    | .overwrite, some _ => rfl
    | .keep, none => rfl
    | .keep, some none => rfl
    | .keep, some (some _) => rfl
    | .raise, none => rfl
    | .raise, some none => exact ⟨trivial, .inl rfl⟩
    | .raise, some (some x) => exact ⟨rfl, rfl, hc _ _ id⟩
  | some (some v) =>
    match p, t with
    | .overwrite, none => rfl
    | .overwrite, some _ => rfl
    | .keep, none => rfl
    | .keep, some _ => rfl
    | .raise, none => rfl
    | .raise, some none => exact ⟨rfl, rfl, hc _ _ id⟩
    | .raise, some (some x) =>
      simp only [multiMergeCell]
      by_cases hd : (decide (x.ty ≠ v.ty) || valuesDiffer x v) = true
      · rw [if_pos hd]
        refine ⟨rfl, rfl, some x, some v, rfl, rfl, ?_⟩
        rintro ⟨h1, h2⟩
        rcases Bool.or_eq_true_iff.1 hd with h | h
        · exact of_decide_eq_true h (h2 x v rfl rfl)
        · exact differ_true h h1
      · rw [if_neg hd]
        have hd := Bool.or_eq_false_iff.1 (Bool.not_eq_true _ ▸ hd)
        exact ⟨differ_false hd.2, .inl rfl⟩

/-- What a value of a typed source and its mask bit stand for. -/
def pairCell (x : Item × Bool) : Cell :=
  match x.1 with
  | some v => some (some v)
  | none => if x.2 then some none else none

theorem typedMergeCell_ok (p : Policy) (ty : Nat) (t : Item × Bool) (o : Cell)
    (ht : ∀ v, t.1 = some v → t.2 = true ∧ v.ty = ty) (ho : ∀ v, o = some (some v) → v.ty = ty) :
    CellOutcome p (pairCell t) o ((typedMergeCell p o.isSome t (o.getD none)).map pairCell) ∧
    ∀ r, typedMergeCell p o.isSome t (o.getD none) = .ok r →
      (r = t ∨ r = (o.getD none, true)) ∧ (∀ v, r.1 = some v → r.2 = true ∧ v.ty = ty) := by
  obtain ⟨tv, tb⟩ := t
  constructor
  · match o with
    | none =>
      have : ∀ p, typedMergeCell p (none : Cell).isSome (tv, tb) ((none : Cell).getD none) =
          .ok (tv, tb) := by
        intro p; cases p <;> rfl
      rw [this]
      show Merged p _ none _
      cases pairCell (tv, tb) <;> rfl
    | some x =>
      have hp : pairCell (x, true) = some x := by cases x <;> rfl
      cases tb with
      | false =>
        have htv : tv = none := by
          cases tv with
          | none => rfl
          | some v => have := (ht v rfl).1; cases this
        subst htv
        have : ∀ p, typedMergeCell p (some x : Cell).isSome (none, false)
            ((some x : Cell).getD none) = .ok (x, true) := by
          intro p; cases p <;> rfl
        rw [this]
        show Merged p none (some x) (pairCell (x, true))
        rw [hp]; rfl
      | true =>
        have hpt : pairCell (tv, true) = some tv := by cases tv <;> rfl
        rw [hpt]
        cases p with
        | overwrite =>
          have h0 : typedMergeCell .overwrite (some x : Cell).isSome (tv, true)
              ((some x : Cell).getD none) = .ok (x, true) := rfl
          rw [h0]
          show Merged .overwrite (some tv) (some x) (pairCell (x, true))
          rw [hp]; rfl
        | keep =>
          have h0 : typedMergeCell .keep (some x : Cell).isSome (tv, true)
              ((some x : Cell).getD none) = .ok (tv, true) := rfl
          rw [h0]
          show Merged .keep (some tv) (some x) (pairCell (tv, true))
          rw [hpt]; rfl
        | raise =>
          have h0 : typedMergeCell .raise (some x : Cell).isSome (tv, true)
              ((some x : Cell).getD none) =
              if optsDiffer tv x then .error .conflict else .ok (tv, true) := rfl
          rw [h0]
          by_cases hd : optsDiffer tv x = true
          · rw [if_pos hd]
            refine ⟨rfl, rfl, tv, x, rfl, rfl, ?_⟩
            rintro ⟨h1, _⟩
            cases tv with
            | none => cases x with
              | none => cases hd
              | some y => exact h1
            | some y => cases x with
              | none => exact h1
              | some z => exact differ_true hd h1
          · rw [if_neg hd]
            show Merged .raise (some tv) (some x) (pairCell (tv, true))
            rw [hpt]
            refine ⟨?_, .inl rfl⟩
            have hd := Bool.not_eq_true _ ▸ hd
            cases tv with
            | none => cases x with
              | none => trivial
              | some y => simp [optsDiffer] at hd
            | some y => cases x with
              | none => simp [optsDiffer] at hd
              | some z => exact differ_false hd
  · intro r hr
    have hcase : r = (tv, tb) ∨ (o.isSome = true ∧ r = (o.getD none, true)) := by
      unfold typedMergeCell at hr
      cases p with
      | overwrite =>
        simp only at hr
        have hr := Except.ok.inj hr
        split at hr
        · exact .inr ⟨by assumption, hr.symm⟩
        · exact .inl hr.symm
      | keep =>
        simp only at hr
        have hr := Except.ok.inj hr
        split at hr
        · rename_i h; exact .inr ⟨(Bool.and_eq_true_iff.1 h).1, hr.symm⟩
        · exact .inl hr.symm
      | raise =>
        simp only at hr
        split at hr
        · exact .inl (Except.ok.inj hr).symm
        · rename_i h1
          split at hr
          · exact .inr ⟨by cases o <;> simp_all, (Except.ok.inj hr).symm⟩
          · split at hr
            · cases hr
            · exact .inl (Except.ok.inj hr).symm
    refine ⟨hcase.imp id (·.2), ?_⟩
    intro v hv
    rcases hcase with rfl | ⟨h1, rfl⟩
    · exact ht v hv
    · refine ⟨rfl, ho v ?_⟩
      cases o with
      | none => cases h1
      | some x => exact congrArg some hv

/-! ### All elements -/

theorem zipM_ok {α β : Type} (f : α → β → Except Err α) (as : List α) (bs : List β)
    {rs : List α} (h : zipM f as bs = .ok rs) :
    rs.length = as.length ∧
    (∀ (i : Nat) a b, as[i]? = some a → bs[i]? = some b → ∃ r, rs[i]? = some r ∧ f a b = .ok r) ∧
    (∀ i : Nat, bs.length ≤ i → rs[i]? = as[i]?) := by
  induction as generalizing bs rs with
  | nil =>
    have : rs = [] := by
      cases bs <;> exact (Except.ok.inj h).symm
    subst this
    exact ⟨rfl, (fun i a b h => by simp at h), fun i _ => rfl⟩
  | cons a as ih =>
    cases bs with
    | nil =>
      have : rs = a :: as := (Except.ok.inj h).symm
      subst this
      exact ⟨rfl, (fun i a b _ h => by simp at h), fun i _ => rfl⟩
    | cons b bs =>
      rw [zipM] at h
      cases hf : f a b with
      | error e => rw [hf] at h; cases h
      | ok x =>
        rw [hf] at h
        cases hz : zipM f as bs with
        | error e => simp only [bind, Except.bind, hz] at h; cases h
        | ok xs =>
          simp only [bind, Except.bind, hz, pure, Except.pure] at h
          have := Except.ok.inj h
          subst this
          obtain ⟨h1, h2, h3⟩ := ih bs hz
          refine ⟨by simp [h1], ?_, ?_⟩
          · intro i a' b' ha hb
            cases i with
            | zero =>
              have ha := Option.some.inj ha
              have hb := Option.some.inj hb
              subst ha hb
              exact ⟨x, rfl, hf⟩
            | succ i => exact h2 i a' b' ha hb
          · intro i hi
            cases i with
            | zero => simp at hi
            | succ i => exact h3 i (by simpa using hi)

theorem zipM_error {α β : Type} (f : α → β → Except Err α) (as : List α) (bs : List β)
    {e : Err} (h : zipM f as bs = .error e) :
    ∃ (i : Nat) (a : α) (b : β), as[i]? = some a ∧ bs[i]? = some b ∧ f a b = .error e := by
  induction as generalizing bs with
  | nil => cases bs <;> cases h
  | cons a as ih =>
    cases bs with
    | nil => cases h
    | cons b bs =>
      rw [zipM] at h
      cases hf : f a b with
      | error e' =>
        rw [hf] at h
        have : e' = e := by
          simp only [bind, Except.bind] at h
          exact Except.error.inj h
        subst this
        exact ⟨0, a, b, rfl, rfl, hf⟩
      | ok x =>
        rw [hf] at h
        cases hz : zipM f as bs with
        | error e' =>
          have : e' = e := by
            simp only [bind, Except.bind, hz] at h
            exact Except.error.inj h
          subst this
          obtain ⟨i, a', b', h1, h2, h3⟩ := ih bs hz
          exact ⟨i + 1, a', b', h1, h2, h3⟩
        | ok xs =>
          simp only [bind, Except.bind, hz, pure, Except.pure] at h
          cases h

/-! ### Whole sources -/

/-- The other source covers more offsets than this one and has no unset element
but a value: the case in which the code writes out of bounds. -/
def Overrun (t o : Rep) : Prop :=
  t.size < o.size ∧ (∀ i, i < o.size → o.get i ≠ none) ∧ ∃ i v, o.get i = some (some v)

/-- What a merge of sources of an allocation with `n` objects does. -/
def RepOutcome (n : Nat) (p : Policy) (t o : Rep) : Except Err Rep → Prop
  | .ok r => r.WF n ∧ r.isMutable = true ∧ r.size = t.size ∧
      ((∀ i, i < n → Merged p (t.get i) (o.get i) (r.get i)) ∨
       ((∀ i, i < n → o.get i = some none) ∧ ∀ i, i < n → r.get i = t.get i))
  | .error e => (e = .conflict ∧ p = .raise ∧ ∃ i, i < n ∧ Conflict (t.get i) (o.get i)) ∨
      (e = .outOfBounds ∧ Overrun t o)

theorem not_present {c : Cell} (h : ∀ v, c ≠ some (some v)) : c = none ∨ c = some none := by
  match c with
  | none => exact .inl rfl
  | some none => exact .inr rfl
  | some (some v) => exact absurd rfl (h v)

theorem merged_not_present {p : Policy} {t o r : Cell} (h : Merged p t o r)
    (ht : ∀ v, t ≠ some (some v)) (ho : ∀ v, o ≠ some (some v)) : ∀ v, r ≠ some (some v) := by
  rcases not_present ht with rfl | rfl <;> rcases not_present ho with rfl | rfl
  · cases h; simp
  · cases h; simp
  · cases h; simp
  · cases p with
    | overwrite => cases h; simp
    | keep => cases h; simp
    | raise =>
      rcases h.2 with rfl | rfl <;> simp

theorem not_conflict_removed {t o : Cell} (ht : ∀ v, t ≠ some (some v))
    (ho : ∀ v, o ≠ some (some v)) : ¬ Conflict t o := by
  rintro ⟨x, y, rfl, rfl, h⟩
  have hx : x = none := by
    cases x with
    | none => rfl
    | some v => exact absurd rfl (ht v)
  have hy : y = none := by
    cases y with
    | none => rfl
    | some v => exact absurd rfl (ho v)
  subst hx hy
  exact h (StrictSame.refl none)

/-- The part for multitype sources: `cells` are the elements of this source. -/
theorem multiMerge_ok {n : Nat} {t o : Rep} (ht : t.WF n) (ho : o.WF n) (p : Policy)
    (cells : List Cell) (hcells : cells = t.cells) :
    RepOutcome n p t o ((multiMerge cells o.getAll p).map .multi) := by
  have hoc := ho.getAll_cells
  have how := ho.getAll_wf
  have htl : cells.length = t.size := by rw [hcells]; exact ht.cellsLen
  have hol := ho.cellsLen
  have htn := ht.size
  have hon := ho.size
  have htg : ∀ i, t.get i = (cells[i]?).getD none := by rw [hcells]; exact ht.get_eq
  have hog := ho.get_eq
  unfold multiMerge
  simp only [hoc]
  -- no present value beyond this source
  have hb1 : ¬ (o.cells.drop cells.length).any isPresent = true := by
    intro h
    obtain ⟨c, hc, hp⟩ := List.any_eq_true.1 h
    match c, hp with
    | some (some v), _ =>
      obtain ⟨j, hj⟩ := List.mem_iff_getElem?.1 hc
      rw [List.getElem?_drop] at hj
      apply ho.beyond (cells.length + j) v (by omega)
      rw [hog, hj]; rfl
  rw [if_neg hb1]
  by_cases hb2 : (!o.getAll.tb && !o.getAll.types.isEmpty &&
      !(o.cells.drop cells.length).isEmpty) = true
  · rw [if_pos hb2]
    right
    simp only [Bool.and_eq_true] at hb2
    refine ⟨rfl, ?_, ?_, ?_⟩
    · have h3 := hb2.2
      simp only [Bool.not_eq_true', List.isEmpty_eq_false_iff] at h3
      have : (o.cells.drop cells.length).length ≠ 0 := by
        intro h0; exact h3 (List.eq_nil_of_length_eq_zero h0)
      rw [List.length_drop] at this
      omega
    · intro i hi
      have htb : o.getAll.tb = false := by simpa using hb2.1.1
      have hnn := (how.noBuffer htb).2
      rw [hoc] at hnn
      rw [hog, List.getElem?_eq_getElem (by omega)]
      intro he
      apply hnn
      have := List.getElem_mem (l := o.cells) (n := i) (by omega)
      rw [Option.getD_some] at he
      rw [he] at this
      exact this
    · have hty : o.getAll.types ≠ [] := by
        have h3 := hb2.1.2
        simpa using h3
      obtain ⟨ty, hty⟩ := List.exists_mem_of_ne_nil _ hty
      obtain ⟨v, hv, _⟩ := how.used ty hty
      rw [hoc] at hv
      obtain ⟨i, hi⟩ := List.mem_iff_getElem?.1 hv
      exact ⟨i, v, by rw [hog, hi]; rfl⟩
  · rw [if_neg hb2]
    by_cases hrm : (o.getAll.tb || !o.getAll.types.isEmpty) = true
    · rw [hrm]
      cases hz : zipM (multiMergeCell p true) cells o.cells with
      | ok rs =>
        obtain ⟨h1, h2, h3⟩ := zipM_ok _ _ _ hz
        have hcell : ∀ i, i < cells.length → i < o.cells.length →
            Merged p (t.get i) (o.get i) ((rs[i]?).getD none) := by
          intro i hi1 hi2
          obtain ⟨r, e1, e2⟩ := h2 i _ _ (List.getElem?_eq_getElem hi1) (List.getElem?_eq_getElem hi2)
          have := multiMergeCell_ok p cells[i] o.cells[i]
          rw [e2] at this
          rw [e1, htg, hog, List.getElem?_eq_getElem hi1, List.getElem?_eq_getElem hi2]
          exact this
        refine ⟨?_, rfl, (show rs.length = t.size by omega), .inl ?_⟩
        · refine ht.of_cells (show rs.length = t.size by omega) ?_ (fun _ _ _ hr => by cases hr)
            (fun _ hr => by cases hr)
          intro i v hi
          show (rs[i]?).getD none ≠ _
          by_cases hi1 : i < cells.length
          · by_cases hi2 : i < o.cells.length
            · exact merged_not_present (hcell i hi1 hi2) (fun v => ht.beyond i v hi)
                (fun v => ho.beyond i v hi) v
            · rw [h3 i (by omega), ← htg]
              exact ht.beyond i v hi
          · rw [List.getElem?_eq_none (by omega)]; simp
        · intro i hi
          exact hcell i (by omega) (by omega)
      | error e =>
        left
        obtain ⟨i, a, b, e1, e2, e3⟩ := zipM_error _ _ _ hz
        have := multiMergeCell_ok p a b
        rw [e3] at this
        have hta : t.get i = a := by rw [htg, e1]; rfl
        have hob : o.get i = b := by rw [hog, e2]; rfl
        refine ⟨this.1, this.2.1, i, ?_, by rw [hta, hob]; exact this.2.2⟩
        apply Classical.byContradiction
        intro hi
        apply not_conflict_removed (fun v => ht.beyond i v (by omega))
          (fun v => ho.beyond i v (by omega))
        rw [hta, hob]
        exact this.2.2
    · -- nothing but removed elements: the merge ignores them
      have hrm := Bool.or_eq_false_iff.1 (Bool.not_eq_true _ ▸ hrm)
      have hnn := (how.noBuffer hrm.1).2
      have hty : o.getAll.types = [] := by
        have := hrm.2
        simpa using this
      have hnp := how.typesNil.1 hty
      rw [hoc] at hnn hnp
      have hall : ∀ i, i < o.cells.length → o.cells[i]? = some (some none) := by
        intro i hi
        have hm := List.getElem_mem hi
        rw [List.getElem?_eq_getElem hi]
        congr 1
        rcases not_present (c := o.cells[i]) (fun v hv => hnp v (hv ▸ hm)) with h | h
        · rw [h] at hm; exact absurd hm hnn
        · exact h
      rw [show (o.getAll.tb || !o.getAll.types.isEmpty) = false by
        rw [hrm.1, hty]; rfl]
      have hf : ∀ a b, b = some none → multiMergeCell p false a b = .ok a := by
        intro a b hb; subst hb; rfl
      cases hz : zipM (multiMergeCell p false) cells o.cells with
      | error e =>
        obtain ⟨i, a, b, e1, e2, e3⟩ := zipM_error _ _ _ hz
        have := hall i (List.getElem?_eq_some_iff.1 e2).1
        rw [e2] at this
        rw [hf a b (Option.some.inj this)] at e3
        cases e3
      | ok rs =>
        obtain ⟨h1, h2, h3⟩ := zipM_ok _ _ _ hz
        have hrs : rs = cells := by
          apply List.ext_getElem?
          intro i
          by_cases hi : i < cells.length
          · by_cases hi2 : i < o.cells.length
            · obtain ⟨r, g1, g2⟩ := h2 i _ _ (List.getElem?_eq_getElem hi)
                (List.getElem?_eq_getElem hi2)
              have := hall i hi2
              rw [List.getElem?_eq_getElem hi2] at this
              rw [hf _ _ (Option.some.inj this)] at g2
              rw [g1, List.getElem?_eq_getElem hi, Except.ok.inj g2]
            · exact h3 i (by omega)
          · rw [List.getElem?_eq_none (by omega), List.getElem?_eq_none (by omega)]
        subst hrs
        refine ⟨?_, rfl, (show rs.length = t.size by omega), .inr ⟨?_, ?_⟩⟩
        · refine ht.of_cells (show rs.length = t.size by omega) ?_ (fun _ _ _ hr => by cases hr)
            (fun _ hr => by cases hr)
          intro i v hi
          show (rs[i]?).getD none ≠ _
          rw [← htg]
          exact ht.beyond i v hi
        · intro i hi
          rw [hog, hall i (by omega)]; rfl
        · intro i _
          show (rs[i]?).getD none = _
          rw [htg]

theorem Rep.WF.mergeImpl_ok {n : Nat} {t o : Rep} (ht : t.WF n) (hm : t.isMutable = true)
    (ho : o.WF n) (p : Policy) : RepOutcome n p t o (t.mergeImpl o.getAll p) := by
  cases t with
  | ro data => cases hm
  | multi cells => exact multiMerge_ok ht ho p cells rfl
  | typed ty vals mask =>
    unfold Rep.mergeImpl
    simp only
    by_cases hd : o.getAll.dtype ≠ some ty
    · rw [if_pos hd]
      exact multiMerge_ok ht ho p (typedCells vals mask) rfl
    · rw [if_neg hd]
      have hd : o.getAll.dtype = some ty := Classical.not_not.1 hd
      have hty := Slice.dtype_some.1 hd
      have hoc := ho.getAll_cells
      have how := ho.getAll_wf
      have hml := ht.maskLen
      have htw := ht.typed ty vals mask rfl
      have hsz : n ≤ vals.length := ht.size
      have hon := ho.size
      have hol := ho.cellsLen
      simp only [hoc]
      generalize hthis : vals.zip (mask.getD (List.replicate vals.length true)) = this
      have hmlen : (mask.getD (List.replicate vals.length true)).length = vals.length := by
        cases mask with
        | none => simp
        | some m => exact hml m rfl
      have hthl : this.length = vals.length := by
        rw [← hthis, List.length_zip, hmlen]; omega
      -- the elements of this source as pairs
      have hth : ∀ (i : Nat) (x : Item × Bool), this[i]? = some x → vals[i]? = some x.1 ∧
          (∀ m, mask = some m → m[i]? = some x.2) ∧ (mask = none → x.2 = true) := by
        intro i x hx
        rw [← hthis] at hx
        have hx := List.getElem?_zip_eq_some.1 hx
        refine ⟨hx.1, ?_, ?_⟩
        · intro m hm
          rw [hm] at hx
          exact hx.2
        · intro hm
          rw [hm] at hx
          simp only [Option.getD_none, List.getElem?_replicate] at hx
          have h2 := hx.2
          split at h2
          · exact (Option.some.inj h2).symm
          · cases h2
      have htg : ∀ (i : Nat) (x : Item × Bool), this[i]? = some x → (Rep.typed ty vals mask).get i = pairCell x := by
        intro i x hx
        obtain ⟨h1, h2, h3⟩ := hth i x hx
        rw [ht.get_eq]
        show ((typedCells vals mask)[i]?).getD none = _
        rw [typedCells_get vals mask hml, h1]
        obtain ⟨v, b⟩ := x
        cases v with
        | some v => rfl
        | none =>
          show maskCell mask i = if b = true then some none else none
          cases mask with
          | none =>
            have : b = true := h3 rfl
            rw [this]; rfl
          | some m =>
            have hmi := h2 m rfl
            show (if m.getD i false = true then _ else _) = _
            rw [List.getD_eq_getElem?_getD, hmi]
            rfl
      have htp : ∀ (i : Nat) (x : Item × Bool), this[i]? = some x → ∀ v, x.1 = some v → x.2 = true ∧ v.ty = ty := by
        intro i x hx v hv
        obtain ⟨h1, h2, h3⟩ := hth i x hx
        rw [hv] at h1
        refine ⟨?_, htw.1 v (List.mem_of_getElem? h1)⟩
        cases hmk : mask with
        | none => exact h3 hmk
        | some m =>
          have := (htw.2 m hmk).2 i v h1
          rw [h2 m hmk] at this
          exact Option.some.inj this
      -- the elements of the other source
      have hset : ∀ c ∈ o.cells, (!o.getAll.tb || c.isSome) = c.isSome := by
        intro c hc
        cases htb : o.getAll.tb with
        | true => rfl
        | false =>
          have hnn := (how.noBuffer htb).2
          rw [hoc] at hnn
          cases c with
          | none => exact absurd hc hnn
          | some x => rfl
      have hop : ∀ c ∈ o.cells, ∀ v, c = some (some v) → v.ty = ty := by
        intro c hc v hv
        subst hv
        have := how.mem v (by rw [hoc]; exact hc)
        rw [hty] at this
        simpa using this
      have hcellok : ∀ (i : Nat) t c, this[i]? = some t → o.cells[i]? = some c → _ :=
        fun i t c h1 h2 => typedMergeCell_ok p ty t c (htp i t h1)
          (hop c (List.mem_of_getElem? h2))
      generalize hf : (fun (t : Item × Bool) (c : Cell) =>
        typedMergeCell p (!o.getAll.tb || c.isSome) t (c.getD none)) = f
      have hfeq : ∀ (i : Nat) t c, o.cells[i]? = some c → f t c =
          typedMergeCell p c.isSome t (c.getD none) := by
        intro i t c hc
        rw [← hf]
        simp only
        rw [hset c (List.mem_of_getElem? hc)]
      have hog := ho.get_eq
      cases hz : zipM f this o.cells with
      | error e =>
        left
        obtain ⟨i, a, b, e1, e2, e3⟩ := zipM_error _ _ _ hz
        have := (hcellok i a b e1 e2).1
        rw [hfeq i a b e2] at e3
        rw [e3] at this
        have hta := htg i a e1
        have hob : o.get i = b := by rw [hog, e2]; rfl
        refine ⟨this.1, this.2.1, i, ?_, by rw [hta, hob]; exact this.2.2⟩
        apply Classical.byContradiction
        intro hi
        apply not_conflict_removed (fun v => ht.beyond i v (by omega))
          (fun v => ho.beyond i v (by omega))
        rw [hta, hob]
        exact this.2.2
      | ok xs =>
        obtain ⟨h1, h2, h3⟩ := zipM_ok _ _ _ hz
        -- every element of the result
        have hx : ∀ (i : Nat) (x : Item × Bool), xs[i]? = some x → ∃ a, this[i]? = some a ∧
            (∀ v, x.1 = some v → x.2 = true ∧ v.ty = ty) ∧
            (mask = none → x.2 = true) ∧
            (∀ c, o.cells[i]? = some c → Merged p (pairCell a) c (pairCell x)) ∧
            (o.cells.length ≤ i → x = a) := by
          intro i x hxi
          have hil : i < this.length := by
            have := (List.getElem?_eq_some_iff.1 hxi).1
            omega
          refine ⟨this[i], List.getElem?_eq_getElem hil, ?_⟩
          have hti := List.getElem?_eq_getElem hil
          by_cases hi2 : i < o.cells.length
          · have hci := List.getElem?_eq_getElem hi2
            obtain ⟨r, g1, g2⟩ := h2 i _ _ hti hci
            rw [hxi] at g1
            have := Option.some.inj g1
            subst this
            rw [hfeq i _ _ hci] at g2
            have hk := hcellok i _ _ hti hci
            have hk2 := hk.2 x g2
            refine ⟨hk2.2, ?_, ?_, by omega⟩
            · intro hmk
              rcases hk2.1 with h | h
              · rw [h]; exact (hth i _ hti).2.2 hmk
              · rw [h]
            · intro c hc
              rw [hci] at hc
              have := Option.some.inj hc
              subst this
              have hk1 := hk.1
              rw [g2] at hk1
              exact hk1
          · have := h3 i (by omega)
            rw [hxi, hti] at this
            have := Option.some.inj this
            subst this
            refine ⟨htp i _ hti, (hth i _ hti).2.2, ?_, fun _ => rfl⟩
            intro c hc
            rw [List.getElem?_eq_none (by omega)] at hc
            cases hc
        have hget : ∀ (i : Nat) (x : Item × Bool), xs[i]? = some x →
            ((typedCells (xs.map (·.1)) (mask.map fun _ => xs.map (·.2)))[i]?).getD none =
              pairCell x := by
          intro i x hxi
          rw [typedCells_get]
          · rw [List.getElem?_map, hxi]
            obtain ⟨v, b⟩ := x
            cases v with
            | some v => rfl
            | none =>
              show maskCell _ i = if b = true then some none else none
              cases hmk : mask with
              | none =>
                obtain ⟨_, _, _, hb, _⟩ := hx i _ hxi
                have : b = true := hb hmk
                rw [this]; rfl
              | some m =>
                show (if (xs.map (·.2)).getD i false = true then _ else _) = _
                rw [List.getD_eq_getElem?_getD, List.getElem?_map, hxi]
                rfl
          · intro m hm
            cases mask with
            | none => cases hm
            | some m0 =>
              have := Option.some.inj hm
              rw [← this]
              simp
        have hwf : (Rep.typed ty (xs.map (·.1)) (mask.map fun _ => xs.map (·.2))).WF n := by
          refine ht.of_cells (by simp only [Rep.size, List.length_map]; omega) ?_ ?_
            (fun _ hr => by cases hr)
          · intro i v hi
            show ((typedCells (xs.map (·.1)) (mask.map fun _ => xs.map (·.2)))[i]?).getD none ≠ _
            cases hxi : xs[i]? with
            | none =>
              have hlen := List.getElem?_eq_none_iff.1 hxi
              have : (typedCells (xs.map (·.1)) (mask.map fun _ => xs.map (·.2))).length =
                  (xs.map (·.1)).length := by
                apply typedCells_length
                intro m hm
                cases mask with
                | none => cases hm
                | some m0 =>
                  have := Option.some.inj hm
                  rw [← this]
                  simp
              rw [List.getElem?_eq_none (by rw [this, List.length_map]; exact hlen)]
              simp
            | some x =>
              rw [hget i x hxi]
              obtain ⟨a, ha1, _, _, ha4, ha5⟩ := hx i x hxi
              have hta : ∀ v, pairCell a ≠ some (some v) := by
                intro v
                rw [← htg i a ha1]
                exact ht.beyond i v hi
              by_cases hi2 : i < o.cells.length
              · have hci := List.getElem?_eq_getElem hi2
                refine merged_not_present (ha4 _ hci) hta ?_ v
                intro v
                have := ho.beyond i v hi
                rw [hog, hci] at this
                exact this
              · rw [ha5 (by omega)]
                exact hta v
          · intro ty' vals' mask' hr
            obtain ⟨rfl, rfl, rfl⟩ := Rep.typed.inj hr
            constructor
            · intro v hv
              obtain ⟨x, hxm, hxv⟩ := List.mem_map.1 hv
              obtain ⟨i, hxi⟩ := List.mem_iff_getElem?.1 hxm
              obtain ⟨_, _, hp, _⟩ := hx i x hxi
              exact (hp v hxv).2
            · intro m hm
              cases mask with
              | none => cases hm
              | some m0 =>
                have := Option.some.inj hm
                subst this
                refine ⟨by simp, ?_⟩
                intro i v hv
                rw [List.getElem?_map] at hv ⊢
                cases hxi : xs[i]? with
                | none => rw [hxi] at hv; cases hv
                | some x =>
                  rw [hxi] at hv
                  obtain ⟨_, _, hp, _⟩ := hx i x hxi
                  simp only [Option.map_some]
                  rw [(hp v (Option.some.inj hv)).1]
        refine ⟨hwf, rfl, by simp only [Rep.size, List.length_map]; omega, .inl ?_⟩
        intro i hi
        have hxl : i < xs.length := by omega
        have hxi := List.getElem?_eq_getElem hxl
        obtain ⟨a, ha1, _, _, ha4, _⟩ := hx i _ hxi
        have hci := List.getElem?_eq_getElem (l := o.cells) (i := i) (by omega)
        rw [hwf.get_eq, htg i a ha1, hog, hci]
        show Merged p _ _ (((typedCells (xs.map (·.1)) (mask.map fun _ => xs.map (·.2)))[i]?).getD none)
        rw [hget i _ hxi]
        exact ha4 _ hci

/-- What a merge of dense sources of one allocation does. -/
def DenseOutcome (a : Alloc) (p : Policy) (t o : Obj → Cell) (over : Prop) :
    Except Err Dense → Prop
  | .ok d => d.WF a ∧ d.rep.isMutable = true ∧
      ((∀ x : Obj, x.alloc = a → x.off < a.n → Merged p (t x) (o x) (d.get x)) ∨
       ((∀ x : Obj, x.alloc = a → x.off < a.n → o x = some none) ∧
         ∀ x : Obj, x.alloc = a → x.off < a.n → d.get x = t x))
  | .error e =>
      (e = .conflict ∧ p = .raise ∧ ∃ x : Obj, x.alloc = a ∧ x.off < a.n ∧ Conflict (t x) (o x)) ∨
      (e = .outOfBounds ∧ over)

theorem Dense.WF.merge_ok {a : Alloc} {d other : Dense} (h : d.WF a) (hm : d.rep.isMutable = true)
    (ho : other.WF a) (p : Policy) :
    DenseOutcome a p d.get other.get (Overrun d.rep other.rep) (d.merge other p) := by
  have hr := h.rep.mergeImpl_ok hm ho.rep p
  unfold Dense.merge
  cases hx : d.rep.mergeImpl other.rep.getAll p with
  | ok r =>
    rw [hx] at hr
    obtain ⟨h1, h2, h3, h4⟩ := hr
    refine ⟨⟨h.alloc, h1, by rw [h3]; exact h.size⟩, h2, ?_⟩
    rcases h4 with h4 | h4
    · exact .inl (fun x _ hxn => h4 x.off hxn)
    · exact .inr ⟨fun x _ hxn => h4.1 x.off hxn, fun x _ hxn => h4.2 x.off hxn⟩
  | error e =>
    rw [hx] at hr
    rcases hr with ⟨h1, h2, i, h3, h4⟩ | hr
    · exact .inl ⟨h1, h2, ⟨a, i⟩, rfl, h3, h4⟩
    · exact .inr hr

end Verif.BagAttr
