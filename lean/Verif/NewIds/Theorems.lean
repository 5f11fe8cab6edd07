import Verif.NewIds.Model

/-!
C102: new ids like those of a slice.
-/

namespace Verif.NewIds

/-- The element is an id of the kind. -/
def ofKind (k : Kind) : Option Id → Bool
  | some i => decide (kindOf i = k)
  | none => false

theorem at_bump (c : Counts) (k k' : Kind) : (bump c k).at k' = c.at k' + if k = k' then 1 else 0 := by
  cases k <;> cases k' <;> rfl

theorem count_spec (l : List (Option Id)) (c : Counts) (k : Kind) :
    (count l c).at k = c.at k + l.countP (ofKind k) := by
  unfold count
  induction l generalizing c with
  | nil => rfl
  | cons x l ih =>
    rw [List.foldl_cons, ih, List.countP_cons]
    cases x with
    | none => simp [ofKind]
    | some i =>
      simp only [at_bump, ofKind, decide_eq_true_eq]
      omega

theorem assign_get (l : List (Option Id)) (c : Counts) (j : Nat) :
    (assign c l)[j]? = (l[j]?).map fun x => x.map fun i =>
      (kindOf i, c.at (kindOf i) + (l.take j).countP (ofKind (kindOf i))) := by
  induction l generalizing c j with
  | nil => rfl
  | cons x l ih =>
    cases j with
    | zero => cases x <;> simp [assign]
    | succ j =>
      cases x with
      | none =>
        simp only [assign, List.getElem?_cons_succ, ih, List.take_succ_cons, List.countP_cons]
        simp [ofKind]
      | some i =>
        simp only [assign, List.getElem?_cons_succ, ih, List.take_succ_cons, List.countP_cons, at_bump, ofKind,
          decide_eq_true_eq]
        congr 1
        funext y
        congr 1
        funext i'
        congr 1
        omega

theorem take_lt {X : Type} {l : List X} {p : X → Bool} {j : Nat} {x : X} (h : l[j]? = some x) (hp : p x = true) {n : Nat}
    (hn : j < n) : (l.take j).countP p < (l.take n).countP p := by
  have h1 : (l.take (j + 1)).countP p = (l.take j).countP p + 1 := by
    rw [List.take_add_one, h, List.countP_append]
    simp [hp]
  have h2 : (l.take (j + 1)).countP p ≤ (l.take n).countP p :=
    (List.take_sublist_take_left (by omega)).countP_le
  omega

theorem find_nth {X : Type} (l : List X) (p : X → Bool) (n : Nat) (h : n < l.countP p) :
    ∃ (j : Nat) (x : X), l[j]? = some x ∧ p x = true ∧ (l.take j).countP p = n := by
  induction l generalizing n with
  | nil => cases h
  | cons x l ih =>
    by_cases hp : p x = true
    · cases n with
      | zero => exact ⟨0, x, rfl, hp, rfl⟩
      | succ n =>
        rw [List.countP_cons, if_pos hp] at h
        obtain ⟨j, y, h1, h2, h3⟩ := ih n (by omega)
        exact ⟨j + 1, y, h1, h2, by rw [List.take_succ_cons, List.countP_cons, if_pos hp, h3]⟩
    · rw [List.countP_cons, if_neg hp] at h
      obtain ⟨j, y, h1, h2, h3⟩ := ih n h
      exact ⟨j + 1, y, h1, h2, by rw [List.take_succ_cons, List.countP_cons, if_neg hp, h3, Nat.add_zero]⟩

theorem idArray_get (l : List (Option Item)) (j : Nat) (i : Id) :
    (idArray l)[j]? = some (some i) ↔ l[j]? = some (some (.id i)) := by
  unfold idArray
  rw [List.getElem?_map]
  cases l[j]? with
  | none => simp
  | some x =>
    cases x with
    | none => simp
    | some y => cases y <;> simp

/-- **C102**: the result has the size of the slice. An element has a new id exactly if it had an id, and the new
one is of the same kind: a dict for a dict, a list for a list, a schema for a schema. -/
theorem C102_kinds (l : List (Option Item)) :
    (newIds l).2.length = l.length ∧
    ∀ (j : Nat) (k : Kind), (∃ n, (newIds l).2[j]? = some (some (k, n))) ↔
      ∃ i, l[j]? = some (some (.id i)) ∧ (k = .dict ↔ i.isDict = true) ∧
        (k = .list ↔ i.isDict = false ∧ i.isList = true) ∧
        (k = .schema ↔ i.isDict = false ∧ i.isList = false ∧ i.isSchema = true) := by
  have hlen : ∀ (m : List (Option Id)) c, (assign c m).length = m.length := by
    intro m
    induction m with
    | nil => exact fun _ => rfl
    | cons x m ih =>
      intro c
      cases x <;> simp [assign, ih]
  refine ⟨by simp [newIds, hlen, idArray], fun j k => ?_⟩
  have hk : ∀ i : Id, kindOf i = k ↔ (k = .dict ↔ i.isDict = true) ∧
        (k = .list ↔ i.isDict = false ∧ i.isList = true) ∧
        (k = .schema ↔ i.isDict = false ∧ i.isList = false ∧ i.isSchema = true) := by
    rintro ⟨d, li, s⟩
    cases d <;> cases li <;> cases s <;> cases k <;> decide
  simp only [newIds, assign_get, ← hk, ← idArray_get]
  constructor
  · rintro ⟨n, h⟩
    cases hx : (idArray l)[j]? with
    | none => rw [hx] at h; cases h
    | some x =>
      cases x with
      | none => rw [hx] at h; cases h
      | some i =>
        rw [hx] at h
        simp only [Option.map_some, Option.some.injEq, Prod.mk.injEq] at h
        exact ⟨i, rfl, h.1⟩
  · rintro ⟨i, h, rfl⟩
    rw [h]
    exact ⟨_, rfl⟩

/-- **C102**, different elements get different new ids, in the order of the slice, and all are within their
allocation. -/
theorem C102_distinct (l : List (Option Item)) {j : Nat} {k : Kind} {n : Nat}
    (h : (newIds l).2[j]? = some (some (k, n))) :
    n < (newIds l).1.at k ∧
    ∀ (j' n' : Nat), j < j' → (newIds l).2[j']? = some (some (k, n')) → n < n' := by
  have hform : ∀ {j : Nat} {n : Nat}, (newIds l).2[j]? = some (some (k, n)) →
      ∃ x, (idArray l)[j]? = some x ∧ ofKind k x = true ∧ n = ((idArray l).take j).countP (ofKind k) := by
    intro j n h
    simp only [newIds, assign_get] at h
    cases hx : (idArray l)[j]? with
    | none => rw [hx] at h; cases h
    | some x =>
      cases x with
      | none => rw [hx] at h; cases h
      | some i =>
        rw [hx] at h
        simp only [Option.map_some, Option.some.injEq, Prod.mk.injEq] at h
        obtain ⟨h1, h2⟩ := h
        subst h1
        refine ⟨some i, rfl, by simp [ofKind], ?_⟩
        rw [← h2]
        cases kindOf i <;> simp [Counts.at]
  obtain ⟨x, h1, h2, h3⟩ := hform h
  constructor
  · have hc : (newIds l).1.at k = (idArray l).countP (ofKind k) := by
      simp only [newIds, count_spec]
      cases k <;> simp [Counts.at]
    have := take_lt h1 h2 (List.getElem?_eq_some_iff.1 h1).1
    rw [List.take_length] at this
    omega
  · intro j' n' hj h'
    obtain ⟨_, _, _, h3'⟩ := hform h'
    rw [h3, h3']
    exact take_lt h1 h2 hj

/-- **C102**, allocations have exactly the size that is needed: all their ids are used. -/
theorem C102_used (l : List (Option Item)) (k : Kind) (n : Nat) (h : n < (newIds l).1.at k) :
    ∃ j : Nat, (newIds l).2[j]? = some (some (k, n)) := by
  have hc : (newIds l).1.at k = (idArray l).countP (ofKind k) := by
    simp only [newIds, count_spec]
    cases k <;> simp [Counts.at]
  rw [hc] at h
  obtain ⟨j, x, h1, h2, h3⟩ := find_nth _ _ n h
  refine ⟨j, ?_⟩
  simp only [newIds, assign_get, h1]
  cases x with
  | none => cases h2
  | some i =>
    have hk : kindOf i = k := by simpa [ofKind] using h2
    subst hk
    simp only [Option.map_some, h3]
    cases kindOf i <;> simp [Counts.at]

example : (newIds [some (.id ⟨false, true, false⟩), some .prim, none, some (.id ⟨true, false, false⟩),
    some (.id ⟨false, true, false⟩), some (.id ⟨false, false, false⟩)]).2 =
    [some (.list, 0), none, none, some (.dict, 0), some (.list, 1), some (.object, 0)] := rfl

end Verif.NewIds
