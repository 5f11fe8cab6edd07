import Verif.View.GroupTheorems

/-! C45: the operators `&`, `|`, the comparisons and `take` act item by item. -/
namespace Verif.View

set_option linter.unusedSectionVars false
set_option linter.unusedSimpArgs false

variable {A E : Type}

/-- `v & w` keeps the items of `v` where `w` is present. -/
theorem C45_and (v w : View A) (hv : v.Wf) (hw : w.Wf) (ha : Agree v w)
    (hm : ∀ p x y, p.length = max v.depth w.depth → v.itemAt p = some x → w.itemAt p = some y →
      x ≠ .none → isMask y) (h : Heap A) :
    ∃ r, andOp (E := E) v w h = .ok (r, h) ∧ r.Wf ∧ r.depth = max v.depth w.depth ∧
      (v.depth = r.depth → SameShape r v) ∧ (w.depth = r.depth → SameShape r w) ∧
      ∀ p x y, p.length = r.depth → v.itemAt p = some x → w.itemAt p = some y →
        r.obj.at? p = some (if isPresent y then x else .none) := by
  have hnone : ∀ o : Obj A, o.isNone = true ↔ o = .none := by
    intro o; cases o <;> simp [Obj.isNone]
  rcases map2_pointwise (E := E) presenceAndImpl v w false hv hw ha h
    (fun x y => match y with | .present => .ok x | _ => .error .valueError)
    (by intro p x y _ _ _; cases y <;> rfl) with
    ⟨r, h1, h2, h3, h4, h5, h6, _⟩ | ⟨e, _, p, x, y, hp, hx, hy, he⟩
  · refine ⟨r, h1, h2, h3, h4, h5, ?_⟩
    intro p x y hp hx hy
    obtain ⟨z, hz, he⟩ := h6 p x y hp hx hy
    rw [hz]
    by_cases hxn : x = .none
    · subst hxn
      simp [orMissing, Obj.isNone] at he
      subst he
      split <;> rfl
    · have := hm p x y (by omega) hx hy hxn
      have hxf : x.isNone = false := by
        cases hh : x.isNone with
        | false => rfl
        | true => exact absurd ((hnone x).1 hh) hxn
      cases y <;> simp [isMask] at this <;> simp [orMissing, hxf, Obj.isNone] at he <;>
        simp [isPresent, ← he]
  · exfalso
    by_cases hxn : x = .none
    · subst hxn
      simp [orMissing, Obj.isNone] at he
    · have := hm p x y hp hx hy hxn
      have hxf : x.isNone = false := by
        cases hh : x.isNone with
        | false => rfl
        | true => exact absurd ((hnone x).1 hh) hxn
      cases y <;> simp [isMask] at this <;> simp [orMissing, hxf, Obj.isNone] at he

/-- `v & w` raises `ValueError` if `w` has another item where `v` is not missing. -/
theorem C45_and_rejects (v w : View A) (hv : v.Wf) (hw : w.Wf) (ha : Agree v w) (p : List Nat)
    (x y : Obj A) (hp : p.length = max v.depth w.depth) (hx : v.itemAt p = some x)
    (hy : w.itemAt p = some y) (hxn : x ≠ .none) (hb : isMask y = false) (h : Heap A) :
    andOp (E := E) v w h = .error .valueError := by
  have hxf : x.isNone = false := by cases x <;> simp [Obj.isNone] at hxn ⊢
  rcases map2_pointwise (E := E) presenceAndImpl v w false hv hw ha h
    (fun x y => match y with | .present => .ok x | _ => .error .valueError)
    (by intro p x y _ _ _; cases y <;> rfl) with
    ⟨r, h1, h2, h3, h4, h5, h6, _⟩ | ⟨e, h1, q, x', y', _, _, _, he⟩
  · exfalso
    obtain ⟨z, hz, he⟩ := h6 p x y (by omega) hx hy
    cases y <;> simp [isMask] at hb <;> simp [orMissing, hxf, Obj.isNone] at he
  · refine h1.trans ?_
    unfold orMissing at he
    split at he
    · cases he
    · cases y' <;> first | (injection he with he; rw [← he]) | cases he

/-- `v | w` is `v` where it is not missing, otherwise `w`. -/
theorem C45_or (v w : View A) (hv : v.Wf) (hw : w.Wf) (ha : Agree v w) (h : Heap A) :
    ∃ r, orOp (E := E) v w h = .ok (r, h) ∧ r.Wf ∧ r.depth = max v.depth w.depth ∧
      (v.depth = r.depth → SameShape r v) ∧ (w.depth = r.depth → SameShape r w) ∧
      ∀ p x y, p.length = r.depth → v.itemAt p = some x → w.itemAt p = some y →
        (x = .none → r.obj.at? p = some y) ∧ (x ≠ .none → r.obj.at? p = some x) := by
  rcases map2_pointwise (E := E) orImpl v w true hv hw ha h
    (fun x y => .ok (if x.isNone then y else x)) (by intro p x y _ _ _; rfl) with
    ⟨r, h1, h2, h3, h4, h5, h6, _⟩ | ⟨e, _, p, x, y, hp, hx, hy, he⟩
  · refine ⟨r, h1, h2, h3, h4, h5, ?_⟩
    intro p x y hp hx hy
    obtain ⟨z, hz, he⟩ := h6 p x y hp hx hy
    simp only [orMissing, Bool.not_true, Bool.false_and, Bool.false_eq_true, if_false] at he
    injection he with he
    rw [hz, ← he]
    cases x <;> simp [Obj.isNone]
  · simp [orMissing] at he

/-- A comparison is present where both items are not missing and the test holds. -/
theorem C45_compare (test : Obj A → Obj A → Bool) (v w : View A) (hv : v.Wf) (hw : w.Wf)
    (ha : Agree v w) (h : Heap A) :
    ∃ r, compareOp (E := E) test v w h = .ok (r, h) ∧ r.Wf ∧ r.depth = max v.depth w.depth ∧
      (v.depth = r.depth → SameShape r v) ∧ (w.depth = r.depth → SameShape r w) ∧
      ∀ p x y, p.length = r.depth → v.itemAt p = some x → w.itemAt p = some y →
        r.obj.at? p = some (if !x.isNone && !y.isNone && test x y then .present else .none) := by
  rcases map2_pointwise (E := E) (compareImpl test) v w false hv hw ha h
    (fun x y => .ok (if test x y then .present else .none)) (by intro p x y _ _ _; rfl) with
    ⟨r, h1, h2, h3, h4, h5, h6, _⟩ | ⟨e, _, p, x, y, hp, hx, hy, he⟩
  · refine ⟨r, h1, h2, h3, h4, h5, ?_⟩
    intro p x y hp hx hy
    obtain ⟨z, hz, he⟩ := h6 p x y hp hx hy
    rw [hz]
    cases hxn : x.isNone <;> cases hyn : y.isNone <;>
      simp [orMissing, hxn, hyn] at he <;> simp [← he]
  · exfalso
    unfold orMissing at he
    split at he <;> cases he

/-- Operators on views of different shapes raise. -/
theorem C45_operators_reject_different_shapes (test : Obj A → Obj A → Bool) (v w : View A)
    (hv : v.Wf) (hw : w.Wf) (ha : ¬ Agree v w) (h : Heap A) :
    (∃ e, andOp (E := E) v w h = .error e) ∧ (∃ e, orOp (E := E) v w h = .error e) ∧
    (∃ e, compareOp (E := E) test v w h = .error e) :=
  ⟨map2_error_of_disagree _ v w false hv hw ha h, map2_error_of_disagree _ v w true hv hw ha h,
   map2_error_of_disagree _ v w false hv hw ha h⟩

/-- `take(index)` gives the item at the index in the last dimension, counted from the end if
the index is negative; `None` if there is no such item or the index is missing. -/
theorem C45_take (toIndex : A → Option Int) (v index : View A) (k : Nat) (hvd : v.depth = k + 1)
    (hv : v.Wf) (hi : index.Wf) (ha : Agree (⟨v.obj, k⟩ : View A) index)
    (hm : ∀ p y, p.length = index.depth → index.obj.at? p = some y →
      y = .none ∨ ∃ a n, y = .atom a ∧ toIndex a = some n) (h : Heap A) :
    ∃ r, take (E := E) toIndex v index h = .ok (r, h) ∧ r.Wf ∧ r.depth = max k index.depth ∧
      ∀ p xs y, p.length = r.depth → v.obj.at? (p.take k) = some (.tup xs) →
        index.itemAt p = some y →
        (y = .none → r.obj.at? p = some .none) ∧
        (∀ a (n : Nat), y = .atom a → toIndex a = some (n : Int) →
          r.obj.at? p = some ((xs[n]?).getD .none)) ∧
        (∀ a (n : Nat), y = .atom a → toIndex a = some (-(n : Int) - 1) →
          (n < xs.length → r.obj.at? p = xs[xs.length - 1 - n]?) ∧
          (xs.length ≤ n → r.obj.at? p = some .none)) := by
  unfold take
  rw [implode_nat v k (by omega) 1 (by omega)]
  simp only
  have hv1 : Nested (k + 1) v.obj := by rw [← hvd]; exact hv
  have hvk := nested_le (Nat.le_succ k) hv1
  have htup : ∀ p x, max k index.depth = p.length →
      (⟨v.obj, k⟩ : View A).itemAt p = some x → ∃ xs, x = .tup xs := by
    intro p x hp hx
    exact tup_at hv1 (p := p.take k) (by rw [List.length_take]; omega) hx
  have hmask : ∀ p y, max k index.depth = p.length → index.itemAt p = some y →
      y = .none ∨ ∃ a n, y = .atom a ∧ toIndex a = some n := by
    intro p y hp hy
    exact hm (p.take index.depth) y (by rw [List.length_take]; omega) hy
  rcases map2_pointwise (E := E) (getItemImpl toIndex) ⟨v.obj, k⟩ index false hvk hi ha h
    (fun x y => (getItemImpl (E := E) toIndex x y h).map (·.1))
    (by
      intro p x y hp hx hy
      obtain ⟨xs, rfl⟩ := htup p x hp.symm hx
      rcases hmask p y hp.symm hy with rfl | ⟨a, n, rfl, hn⟩
      · rfl
      · simp [getItemImpl, hn, pureM, Except.map]) with
    ⟨r, h1, h2, h3, h4, h5, h6, _⟩ | ⟨e, _, p, x, y, hp, hx, hy, he⟩
  · refine ⟨r, h1, h2, h3, ?_⟩
    intro p xs y hp hx hy
    obtain ⟨z, hz, he⟩ := h6 p (.tup xs) y hp hx hy
    refine ⟨?_, ?_, ?_⟩
    · rintro rfl
      simp [orMissing, Obj.isNone] at he
      rw [hz, ← he]
    · rintro a n rfl hn
      simp only [orMissing, Obj.isNone, List.any_cons, List.any_nil, Bool.or_false, Bool.and_false,
        Bool.false_eq_true, if_false, getItemImpl, hn, Except.map] at he
      have h0 : ¬ ((n : Int) < 0) := by omega
      simp only [h0, if_false] at he
      injection he with he
      rw [hz, ← he]
      simp [List.getD_eq_getElem?_getD]
    · rintro a n rfl hn
      simp only [orMissing, Obj.isNone, List.any_cons, List.any_nil, Bool.or_false, Bool.and_false,
        Bool.false_eq_true, if_false, getItemImpl, hn, Except.map] at he
      have hneg : (-(n : Int) - 1) < 0 := by omega
      simp only [hneg, if_true] at he
      constructor
      · intro hlt
        have he' : (-(n : Int) - 1 + xs.length) = ((xs.length - 1 - n : Nat) : Int) := by omega
        rw [he'] at he
        rw [if_neg (by omega)] at he
        injection he with he
        rw [hz, ← he]
        simp only [Int.toNat_natCast, List.getD_eq_getElem?_getD]
        rw [List.getElem?_eq_getElem (by omega)]
        rfl
      · intro hge
        rw [if_pos (by omega)] at he
        injection he with he
        rw [hz, ← he]
  · exfalso
    obtain ⟨xs, rfl⟩ := htup p x hp.symm hx
    rcases hmask p y hp.symm hy with rfl | ⟨a, n, rfl, hn⟩
    · simp [orMissing, Obj.isNone] at he
    · simp [orMissing, Obj.isNone, getItemImpl, hn, Except.map] at he

/-! ### Examples -/

example : (orOp (E := Unit) (⟨.tup [.atom 1, .none], 1⟩ : View Nat) ⟨.atom 5, 0⟩ []).toOption.map (·.1) =
    some ⟨.tup [.atom 1, .atom 5], 1⟩ := rfl

example : (take (E := Unit) (fun a : Nat => some (a : Int)) sample ⟨.atom 1, 0⟩ []).toOption.map (·.1) =
    some ⟨.tup [.atom 2, .none, .none], 1⟩ := rfl

end Verif.View
