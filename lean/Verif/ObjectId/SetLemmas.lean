import Verif.ObjectId.SetModel
import Verif.ObjectId.IdTheorems

/-! Lemmas about the sorted vectors of `AllocationIdSet`. -/

namespace Verif.ObjectId

/-- The number by which allocation ids are ordered. -/
def AllocationId.key (a : AllocationId) : Nat := a.raw.toRawInt128.toNat

theorem lt_iff_key (a b : AllocationId) : a.lt b = true ↔ a.key < b.key :=
  (C32_order a.raw b.raw).1

theorem lt_false_iff (a b : AllocationId) : a.lt b = false ↔ b.key ≤ a.key := by
  rw [← Bool.not_eq_true, lt_iff_key]
  omega

theorem key_inj {a b : AllocationId} (h : a.key = b.key) : a = b := by
  have := ((C32_order a.raw b.raw).2.1).1 (BitVec.eq_of_toNat_eq h)
  cases a; cases b
  simp only at this
  rw [this]

/-- Weakly sorted. -/
def Sorted (l : List AllocationId) : Prop := l.Pairwise (fun a b => a.key ≤ b.key)

/-- Strictly sorted. -/
def SSorted (l : List AllocationId) : Prop := l.Pairwise (fun a b => a.key < b.key)

theorem SSorted.nodup {l : List AllocationId} (h : SSorted l) : l.Nodup :=
  h.imp (fun hlt e => by subst e; omega)

theorem SSorted.sorted {l : List AllocationId} (h : SSorted l) : Sorted l :=
  h.imp (fun hlt => Nat.le_of_lt hlt)

theorem mem_insertSorted (x y : AllocationId) (l : List AllocationId) :
    y ∈ insertSorted x l ↔ y = x ∨ y ∈ l := by
  induction l with
  | nil => simp [insertSorted]
  | cons a l ih =>
    unfold insertSorted
    split
    · rw [List.mem_cons, ih, List.mem_cons]
      constructor
      · rintro (h | h | h) <;> simp [h]
      · rintro (h | h | h) <;> simp [h]
    · simp

theorem mem_sortIds (y : AllocationId) (l : List AllocationId) : y ∈ sortIds l ↔ y ∈ l := by
  induction l with
  | nil => simp [sortIds]
  | cons a l ih => rw [sortIds, mem_insertSorted, ih, List.mem_cons]

theorem sorted_insertSorted (x : AllocationId) (l : List AllocationId) (h : Sorted l) :
    Sorted (insertSorted x l) := by
  induction l with
  | nil => simp [insertSorted, Sorted]
  | cons a l ih =>
    unfold insertSorted
    have h' := List.pairwise_cons.1 h
    split
    · next hlt =>
      rw [lt_iff_key] at hlt
      refine List.pairwise_cons.2 ⟨?_, ih h'.2⟩
      intro y hy
      rcases (mem_insertSorted x y l).1 hy with rfl | hy
      · omega
      · exact h'.1 y hy
    · next hlt =>
      rw [Bool.not_eq_true, lt_false_iff] at hlt
      refine List.pairwise_cons.2 ⟨?_, h⟩
      intro y hy
      rcases List.mem_cons.1 hy with rfl | hy
      · exact hlt
      · exact Nat.le_trans hlt (h'.1 y hy)

theorem sorted_sortIds (l : List AllocationId) : Sorted (sortIds l) := by
  induction l with
  | nil => exact List.Pairwise.nil
  | cons a l ih => exact sorted_insertSorted a _ ih

theorem mem_uniqueIds (y : AllocationId) (l : List AllocationId) : y ∈ uniqueIds l ↔ y ∈ l := by
  induction l with
  | nil => simp [uniqueIds]
  | cons a l ih =>
    cases l with
    | nil => simp [uniqueIds]
    | cons b l =>
      unfold uniqueIds
      split
      · next e =>
        subst e
        rw [ih]
        simp
      · rw [List.mem_cons, ih, List.mem_cons (a := y) (b := a)]

theorem ssorted_uniqueIds (l : List AllocationId) (h : Sorted l) : SSorted (uniqueIds l) := by
  induction l with
  | nil => exact List.Pairwise.nil
  | cons a l ih =>
    cases l with
    | nil => simp [uniqueIds, SSorted]
    | cons b l =>
      have h' := List.pairwise_cons.1 h
      unfold uniqueIds
      split
      · exact ih h'.2
      · next hne =>
        refine List.pairwise_cons.2 ⟨?_, ih h'.2⟩
        intro y hy
        rw [mem_uniqueIds] at hy
        have hab := h'.1 b (List.mem_cons_self ..)
        have hne' : a.key ≠ b.key := fun e => hne (key_inj e)
        rcases List.mem_cons.1 hy with rfl | hy
        · omega
        · have := (List.pairwise_cons.1 h'.2).1 y hy
          omega

theorem mem_mergeIds (y : AllocationId) (l r : List AllocationId) :
    y ∈ mergeIds l r ↔ y ∈ l ∨ y ∈ r := by
  induction l, r using mergeIds.induct with
  | case1 ys => simp [mergeIds]
  | case2 x xs => simp [mergeIds]
  | case3 x xs z zs h ih =>
    rw [mergeIds, if_pos h, List.mem_cons, ih, List.mem_cons (a := y) (b := z)]
    constructor
    · rintro (h | h | h) <;> simp [h]
    · rintro (h | h | h) <;> simp [h]
  | case4 x xs z zs h ih =>
    rw [mergeIds, if_neg h, List.mem_cons, ih, List.mem_cons (a := y) (b := x)]
    constructor
    · rintro (h | h | h) <;> simp [h]
    · rintro ((h | h) | h) <;> simp [h]

theorem sorted_mergeIds (l r : List AllocationId) (hl : Sorted l) (hr : Sorted r) :
    Sorted (mergeIds l r) := by
  induction l, r using mergeIds.induct with
  | case1 ys => simpa [mergeIds] using hr
  | case2 x xs => simpa [mergeIds] using hl
  | case3 x xs z zs h ih =>
    have hr' := List.pairwise_cons.1 hr
    have hl' := List.pairwise_cons.1 hl
    rw [mergeIds, if_pos h]
    rw [lt_iff_key] at h
    refine List.pairwise_cons.2 ⟨?_, ih hl hr'.2⟩
    intro y hy
    rcases (mem_mergeIds y _ _).1 hy with hy | hy
    · rcases List.mem_cons.1 hy with rfl | hy
      · omega
      · have := hl'.1 y hy
        omega
    · exact hr'.1 y hy
  | case4 x xs z zs h ih =>
    have hr' := List.pairwise_cons.1 hr
    have hl' := List.pairwise_cons.1 hl
    rw [mergeIds, if_neg h]
    rw [Bool.not_eq_true, lt_false_iff] at h
    refine List.pairwise_cons.2 ⟨?_, ih hl'.2 hr⟩
    intro y hy
    rcases (mem_mergeIds y _ _).1 hy with hy | hy
    · exact hl'.1 y hy
    · rcases List.mem_cons.1 hy with rfl | hy
      · exact h
      · have := hr'.1 y hy
        omega

theorem commonPrefix_spec (xs ys : List AllocationId) :
    AllocationIdSet.commonPrefix xs ys ≤ xs.length ∧
      AllocationIdSet.commonPrefix xs ys ≤ ys.length ∧
      xs.take (AllocationIdSet.commonPrefix xs ys) =
        ys.take (AllocationIdSet.commonPrefix xs ys) := by
  induction xs generalizing ys with
  | nil => simp [AllocationIdSet.commonPrefix]
  | cons x xs ih =>
    cases ys with
    | nil => simp [AllocationIdSet.commonPrefix]
    | cons y ys =>
      unfold AllocationIdSet.commonPrefix
      split
      · next e =>
        subst e
        obtain ⟨h1, h2, h3⟩ := ih ys
        refine ⟨by simp only [List.length_cons]; omega, by simp only [List.length_cons]; omega, ?_⟩
        rw [List.take_succ_cons, List.take_succ_cons, h3]
      · simp

/-- Elements before the lower bound are less, the others are not. -/
theorem lowerBound_spec (xs : List AllocationId) (id : AllocationId) (h : SSorted xs) :
    lowerBound xs id ≤ xs.length ∧
      (∀ x ∈ xs.take (lowerBound xs id), x.key < id.key) ∧
      (∀ x ∈ xs.drop (lowerBound xs id), id.key ≤ x.key) := by
  induction xs with
  | nil => simp [lowerBound]
  | cons a l ih =>
    have h' := List.pairwise_cons.1 h
    obtain ⟨i1, i2, i3⟩ := ih h'.2
    unfold lowerBound at *
    by_cases hlt : a.lt id = true
    · rw [List.takeWhile_cons_of_pos (p := fun x : AllocationId => x.lt id) hlt]
      rw [lt_iff_key] at hlt
      refine ⟨by simp only [List.length_cons]; omega, ?_, ?_⟩
      · intro x hx
        rw [List.length_cons, List.take_succ_cons] at hx
        rcases List.mem_cons.1 hx with rfl | hx
        · exact hlt
        · exact i2 x hx
      · intro x hx
        rw [List.length_cons, List.drop_succ_cons] at hx
        exact i3 x hx
    · rw [List.takeWhile_cons_of_neg (p := fun x : AllocationId => x.lt id) hlt]
      rw [Bool.not_eq_true, lt_false_iff] at hlt
      refine ⟨by simp, by simp, ?_⟩
      intro x hx
      rcases List.mem_cons.1 (by simpa using hx : x ∈ a :: l) with rfl | hx
      · exact hlt
      · have := h'.1 x hx
        omega

/-- Two strictly sorted lists with the same members are equal. -/
theorem ssorted_ext {l r : List AllocationId} (hl : SSorted l) (hr : SSorted r)
    (h : ∀ x, x ∈ l ↔ x ∈ r) : l = r := by
  induction l generalizing r with
  | nil =>
    cases r with
    | nil => rfl
    | cons b r => exact absurd ((h b).2 (List.mem_cons_self ..)) (by simp)
  | cons a l ih =>
    cases r with
    | nil => exact absurd ((h a).1 (List.mem_cons_self ..)) (by simp)
    | cons b r =>
      have hl' := List.pairwise_cons.1 hl
      have hr' := List.pairwise_cons.1 hr
      have e : a = b := by
        rcases List.mem_cons.1 ((h a).1 (List.mem_cons_self ..)) with e | ha
        · exact e
        · rcases List.mem_cons.1 ((h b).2 (List.mem_cons_self ..)) with e | hb
          · exact e.symm
          · have := hr'.1 a ha
            have := hl'.1 b hb
            omega
      subst e
      congr 1
      apply ih hl'.2 hr'.2
      intro x
      constructor
      · intro hx
        rcases List.mem_cons.1 ((h x).1 (List.mem_cons_of_mem _ hx)) with e | h1
        · have := hl'.1 x hx
          rw [e] at this
          omega
        · exact h1
      · intro hx
        rcases List.mem_cons.1 ((h x).2 (List.mem_cons_of_mem _ hx)) with e | h1
        · have := hr'.1 x hx
          rw [e] at this
          omega
        · exact h1

theorem subset_of_length {l r : List AllocationId} (hl : l.Nodup)
    (h : ∀ x ∈ l, x ∈ r) (hlen : r.length ≤ l.length) : ∀ x ∈ r, x ∈ l := by
  intro x hx
  apply Classical.byContradiction
  intro hn
  have hnd : (x :: l).Nodup := List.nodup_cons.2 ⟨hn, hl⟩
  have hsub : ∀ y ∈ x :: l, y ∈ r := by
    intro y hy
    rcases List.mem_cons.1 hy with rfl | hy
    · exact hx
    · exact h y hy
  have := hnd.length_le_of_subset (l₂ := r) (fun y hy => hsub y hy)
  simp only [List.length_cons] at this
  omega

end Verif.ObjectId
