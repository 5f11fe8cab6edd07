import Verif.DataList.Lemmas

/-! C24: Koda lists are sequences of optional values, whatever their storage. -/

namespace Verif.DataList

set_option linter.unusedSectionVars false

variable {Ty : Type} [DecidableEq Ty] {Val : Ty → Type}

/-- However a list was made and whatever calls were made on it, it reads as the plain sequence
after the same calls. -/
theorem C24_lists_are_sequences (l : DataList Val) (xs : List (DataItem Val)) (hm : Made l xs)
    (ops : List (Op Val)) (hv : ValidOps xs ops) :
    (ops.foldl Op.onDataList l).size = (ops.foldl Op.onList xs).length ∧
      ∀ i, i < (ops.foldl Op.onList xs).length →
        (ops.foldl Op.onList xs)[i]? = some ((ops.foldl Op.onDataList l).get i) := by
  obtain ⟨h1, rfl⟩ := made_repr hm
  obtain ⟨h2, h3⟩ := onList_ops ops l h1 hv
  have hl := repr_length _ h2
  rw [h3] at hl
  refine ⟨hl.symm, ?_⟩
  intro i hi
  rw [← h3]
  exact get_repr _ i (by omega) h2

/-- So the storage cannot be seen: lists that were made with the same contents read the same
after the same calls. -/
theorem C24_storage_is_invisible (l l' : DataList Val) (xs : List (DataItem Val))
    (hm : Made l xs) (hm' : Made l' xs) (ops : List (Op Val)) (hv : ValidOps xs ops) :
    (ops.foldl Op.onDataList l).size = (ops.foldl Op.onDataList l').size ∧
      ∀ i, i < (ops.foldl Op.onDataList l).size →
        (ops.foldl Op.onDataList l).get i = (ops.foldl Op.onDataList l').get i := by
  obtain ⟨h1, h2⟩ := C24_lists_are_sequences l xs hm ops hv
  obtain ⟨h1', h2'⟩ := C24_lists_are_sequences l' xs hm' ops hv
  refine ⟨h1.trans h1'.symm, ?_⟩
  intro i hi
  have := (h2 i (by omega)).symm.trans (h2' i (by omega))
  exact Option.some.inj this

/-- Reading a part of a list into a slice builder at an offset: a position outside of the part
and a position that is already set stay as they are, any other position then reads as the item
of the list (a position that stays unset reads as missing). -/
theorem C24_read_into_slice (l : DataList Val) (xs : List (DataItem Val)) (hm : Made l xs)
    (ops : List (Op Val)) (hv : ValidOps xs ops) (bldr : List (Option (DataItem Val)))
    (offset start stop : Nat) (h1 : start ≤ stop) (h2 : stop ≤ (ops.foldl Op.onList xs).length)
    (h3 : offset + (stop - start) ≤ bldr.length) (o : Option Nat)
    (ho : o = some stop ∨ o = none ∧ stop = (ops.foldl Op.onList xs).length) :
    ((ops.foldl Op.onDataList l).addToDataSlice bldr offset start o).length = bldr.length ∧
    ∀ j, j < bldr.length → ∃ y,
      ((ops.foldl Op.onDataList l).addToDataSlice bldr offset start o)[j]? = some y ∧
      ((j < offset ∨ offset + (stop - start) ≤ j ∨ ∃ x, bldr[j]? = some (some x)) →
        bldr[j]? = some y) ∧
      (offset ≤ j → j < offset + (stop - start) → bldr[j]? = some none →
        (ops.foldl Op.onList xs)[start + (j - offset)]? = some (y.getD .missing)) := by
  obtain ⟨hw, rfl⟩ := made_repr hm
  obtain ⟨hw2, h4⟩ := onList_ops ops l hw hv
  generalize ops.foldl Op.onDataList l = l' at *
  rw [← h4] at h2 ho ⊢
  have hlen := repr_length l' hw2
  have hstop : o.getD l'.size = stop := by
    rcases ho with rfl | ⟨rfl, rfl⟩
    · rfl
    · exact hlen.symm
  clear h4
  have hadd : ∀ get : Nat → DataItem Val,
      (∀ i, i < l'.size → (repr l')[i]? = some (get i)) →
      (addLoop get (stop - start) start offset bldr).length = bldr.length ∧
      ∀ j, j < bldr.length → ∃ y,
      (addLoop get (stop - start) start offset bldr)[j]? = some y ∧
      ((j < offset ∨ offset + (stop - start) ≤ j ∨ ∃ x, bldr[j]? = some (some x)) →
        bldr[j]? = some y) ∧
      (offset ≤ j → j < offset + (stop - start) → bldr[j]? = some none →
        (repr l')[start + (j - offset)]? = some (y.getD .missing)) := by
    intro get hget
    constructor
    · have : ∀ k i offset (b : List (Option (DataItem Val))),
          (addLoop get k i offset b).length = b.length := by
        intro k
        induction k with
        | zero => intro _ _ _; rfl
        | succ k ih =>
          intro i offset b
          rw [addLoop, ih]
          unfold insertIfNotSet
          split <;> simp
      exact this _ _ _ _
    · intro j hj
      rw [addLoop_get]
      by_cases hc : offset ≤ j ∧ j < offset + (stop - start) ∧ bldr[j]? = some none
      · rw [if_pos hc]
        refine ⟨_, rfl, ?_, ?_⟩
        · rintro (h | h | ⟨x, h⟩)
          · omega
          · omega
          · rw [hc.2.2] at h
            cases h
        · intro _ _ _
          exact hget _ (by omega)
      · rw [if_neg hc, List.getElem?_eq_getElem hj]
        refine ⟨_, rfl, fun _ => rfl, ?_⟩
        intro h5 h6 h7
        rw [← List.getElem?_eq_getElem hj] at h7
        exact absurd ⟨h5, h6, h7⟩ hc
  unfold DataList.addToDataSlice
  simp only [hstop]
  obtain ⟨size, data⟩ := l'
  cases data with
  | allMissing =>
    refine ⟨rfl, ?_⟩
    intro j hj
    refine ⟨_, List.getElem?_eq_getElem hj, fun _ => List.getElem?_eq_getElem hj, ?_⟩
    intro h5 h6 h7
    rw [List.getElem?_eq_getElem hj, Option.some.injEq] at h7
    rw [h7]
    unfold repr
    simp only at hlen ⊢
    rw [List.getElem?_replicate, if_pos (by omega)]
    rfl
  | typed t vec =>
    refine hadd (fun i => .ofOpt (vec.getD i none)) ?_
    intro i hi
    exact get_repr _ i hi hw2
  | items vec =>
    refine hadd (fun i => vec.getD i .missing) ?_
    intro i hi
    exact get_repr _ i hi hw2

/-- Example: two types, numbers and truth values. A list that starts without values becomes
typed, then mixed. -/
example :
    let Val : Bool → Type := fun b => if b then Nat else Bool
    let n (k : Nat) : DataItem Val := .val true k
    let b (k : Bool) : DataItem Val := .val false k
    let ops : List (Op Val) := [.resize 2, .set 0 (n 7), .insertMissing 1 2, .insert 4 (b true),
      .setMissingRange 0 1, .remove 1 1]
    ValidOps [] ops ∧ ops.foldl Op.onList [] =
      ([.missing, .missing, .missing, b true] : List (DataItem Val)) ∧
    ∃ vec, (ops.foldl Op.onDataList .empty).data = .items vec := by
  refine ⟨?_, rfl, _, rfl⟩
  simp [ValidOps, Op.Valid, Op.onList]

end Verif.DataList
