import Verif.Reshape.Spec

/-!
C103: slices as columns of indices, and back.
-/

namespace Verif.Reshape

variable {V : Type}

theorem drop_prefix {R : Type} (p : R → Bool) (l : List R) (i : Nat) (h : i < (dropTrailing p l).length) :
    (dropTrailing p l)[i]? = l[i]? := by
  induction l generalizing i with
  | nil => rfl
  | cons x l ih =>
    unfold dropTrailing at h ⊢
    cases hd : dropTrailing p l with
    | nil =>
      rw [hd] at h
      simp only at h ⊢
      by_cases hp : p x = true
      · rw [if_pos hp] at h; cases h
      · rw [if_neg hp] at h ⊢
        have : i = 0 := by simpa using h
        subst this
        rfl
    | cons y r =>
      rw [hd] at h ih
      simp only at h ⊢
      cases i with
      | zero => rfl
      | succ i => exact ih i (by simpa using h)

theorem drop_covers {R : Type} (p : R → Bool) (l : List R) (i : Nat) (x : R) (h : l[i]? = some x) (hp : p x = false) :
    i < (dropTrailing p l).length := by
  induction l generalizing i with
  | nil => cases h
  | cons y l ih =>
    unfold dropTrailing
    cases i with
    | zero =>
      cases h
      cases dropTrailing p l with
      | nil => simp [hp]
      | cons => simp
    | succ i =>
      have := ih i h
      cases hd : dropTrailing p l with
      | nil => rw [hd] at this; cases this
      | cons z r =>
        rw [hd] at this
        simpa using this

theorem drop_last {R : Type} (p : R → Bool) (l : List R) (m : Nat) (h : (dropTrailing p l).length = m + 1) :
    ∃ x, l[m]? = some x ∧ p x = false := by
  induction l generalizing m with
  | nil => cases h
  | cons y l ih =>
    unfold dropTrailing at h
    cases hd : dropTrailing p l with
    | nil =>
      rw [hd] at h
      simp only at h
      by_cases hp : p y = true
      · rw [if_pos hp] at h; cases h
      · rw [if_neg hp] at h
        have : m = 0 := by simpa using h.symm
        subst this
        exact ⟨y, rfl, by simpa using hp⟩
    | cons z r =>
      rw [hd] at h ih
      simp only [List.length_cons, Nat.add_right_cancel_iff] at h ih
      cases m with
      | zero => omega
      | succ m => exact ih m (by omega)

theorem num_lt {l : List Nat} {i : Nat} (h : i ∈ l) : i < numChildren l := by
  induction l with
  | nil => cases h
  | cons k l ih =>
    unfold numChildren
    rcases List.mem_cons.1 h with rfl | h
    · omega
    · have := ih h
      omega

theorem num_mem {l : List Nat} {m : Nat} (h : numChildren l = m + 1) : m ∈ l := by
  induction l with
  | nil => cases h
  | cons k l ih =>
    unfold numChildren at h
    by_cases hk : k = m
    · rw [hk]; exact List.mem_cons_self
    · exact List.mem_cons_of_mem _ (ih (by omega))

theorem num_eq {R : Type} {p : R → Bool} {rows : List R} {ks : List Nat}
    (h : ∀ i, i ∈ ks ↔ ∃ x, rows[i]? = some x ∧ p x = false) :
    numChildren ks = (dropTrailing p rows).length := by
  apply Nat.le_antisymm
  · cases hn : numChildren ks with
    | zero => omega
    | succ m =>
      obtain ⟨x, h1, h2⟩ := (h m).1 (num_mem hn)
      exact drop_covers p rows m x h1 h2
  · cases hn : (dropTrailing p rows).length with
    | zero => omega
    | succ m => exact num_lt ((h m).2 (drop_last p rows m hn))

theorem below_append (i : Nat) (a b : Items V) : below i (a ++ b) = below i a ++ below i b := by
  unfold below
  rw [List.filterMap_append]

theorem below_own (k : Nat) (a : Items V) : below k (a.map fun it => (k :: it.1, it.2)) = a := by
  unfold below
  induction a with
  | nil => rfl
  | cons x a ih => simp [ih]

theorem below_other {i k : Nat} (h : k ≠ i) (a : Items V) : below i (a.map fun it => (k :: it.1, it.2)) = [] := by
  unfold below
  induction a with
  | nil => rfl
  | cons x a ih => simp [h]

theorem below_number {R : Type} (f : R → Items V) (i k : Nat) (rows : List R) :
    below i (number f k rows) = if k ≤ i then ((rows[i - k]?).map f).getD [] else [] := by
  induction rows generalizing k with
  | nil => simp [number, below]
  | cons r rs ih =>
    unfold number
    rw [below_append, ih]
    by_cases hk : k = i
    · subst hk
      rw [below_own, if_neg (by omega), if_pos (Nat.le_refl _)]
      simp
    · rw [below_other hk]
      by_cases hle : k ≤ i
      · have : i - k = (i - (k + 1)) + 1 := by omega
        rw [if_pos (by omega), if_pos hle, this]
        simp
      · rw [if_neg (by omega), if_neg hle]
        rfl

theorem mem_keys (items : Items V) (i : Nat) : i ∈ keys items ↔ below i items ≠ [] := by
  unfold keys below
  rw [Ne, List.filterMap_eq_nil_iff]
  constructor
  · intro h hn
    obtain ⟨it, hit, he⟩ := List.mem_filterMap.1 h
    have := hn it hit
    cases hx : it.1 with
    | nil => rw [hx] at he; cases he
    | cons k r =>
      rw [hx] at he this
      cases he
      simp at this
  · intro h
    obtain ⟨it, h⟩ := Classical.not_forall.1 h
    obtain ⟨hit, h⟩ := Classical.not_imp.1 h
    refine List.mem_filterMap.2 ⟨it, hit, ?_⟩
    cases hx : it.1 with
    | nil => rw [hx] at h; exact (h rfl).elim
    | cons k r =>
      rw [hx] at h
      by_cases hk : k = i
      · rw [hk]; rfl
      · simp [hk] at h

theorem number_nil {R : Type} (f : R → Items V) (k : Nat) (rows : List R) :
    number f k rows = [] ↔ ∀ r ∈ rows, f r = [] := by
  induction rows generalizing k with
  | nil => simp [number]
  | cons r rs ih => simp [number, ih]

theorem no_elements_row (n : Nat) (ih : ∀ t : Nest V n, noElements n t = true ↔ elements n t = [])
    (rows : List (Nest V n)) : rows.all (noElements n) = true ↔ number (elements n) 0 rows = [] := by
  rw [number_nil, List.all_eq_true]
  exact ⟨fun h r hr => (ih r).1 (h r hr), fun h r hr => (ih r).2 (h r hr)⟩

theorem no_elements (n : Nat) (t : Nest V n) : noElements n t = true ↔ elements n t = [] := by
  induction n with
  | zero => simp [noElements, elements]
  | succ n ih => exact no_elements_row n ih t

theorem keys_number (n : Nat) (rows : List (Nest V n)) (i : Nat) :
    i ∈ keys (number (elements n) 0 rows) ↔ ∃ x, rows[i]? = some x ∧ noElements n x = false := by
  have hb : below i (number (elements n) 0 rows) = ((rows[i]?).map (elements n)).getD [] := by
    rw [below_number, if_pos (Nat.zero_le _), Nat.sub_zero]
  rw [mem_keys, hb]
  cases hr : rows[i]? with
  | none => simp
  | some r =>
    have hne := no_elements n r
    constructor
    · intro h
      refine ⟨r, rfl, ?_⟩
      cases hx : noElements n r with
      | false => rfl
      | true => exact (h (hne.1 hx)).elim
    · rintro ⟨x, hx, h⟩ he
      cases hx
      have : noElements n r = true := hne.2 he
      rw [h] at this
      cases this

theorem step_eq (n : Nat) (ih : ∀ t : Nest V n, reshape n (elements n t) = trim n t) (rows : List (Nest V n)) :
    (List.range (numChildren (keys (number (elements n) 0 rows)))).map
      (fun i => reshape n (below i (number (elements n) 0 rows))) =
    (dropTrailing (noElements n) rows).map (trim n) := by
  rw [num_eq (keys_number n rows)]
  apply List.ext_getElem?
  intro i
  rw [List.getElem?_map, List.getElem?_map]
  by_cases hi : i < (dropTrailing (noElements n) rows).length
  · have hp := drop_prefix _ _ _ hi
    rw [List.getElem?_range hi, hp]
    cases hr : rows[i]? with
    | none =>
      rw [hr] at hp
      have := List.getElem?_eq_none_iff.1 hp
      omega
    | some r =>
      rw [Option.map_some, Option.map_some, below_number, if_pos (Nat.zero_le _), Nat.sub_zero, hr, ← ih r]
      rfl
  · rw [List.getElem?_eq_none (by rw [List.length_range]; omega), List.getElem?_eq_none (by omega)]
    rfl

/-- **C103**: a slice that is made from the coordinates and the values of the elements of a slice is this slice,
without the rows without elements at the ends. -/
theorem C103_roundtrip (n : Nat) (t : Nest V n) : reshape n (elements n t) = trim n t := by
  induction n with
  | zero => rfl
  | succ n ih => exact step_eq n ih t

theorem drop_same {R : Type} (p : R → Bool) (l : List R) :
    dropTrailing p l = l ↔ ∀ x, l.getLast? = some x → p x = false := by
  constructor
  · intro h x hx
    cases hl : l.length with
    | zero =>
      rw [List.length_eq_zero_iff.1 hl] at hx
      cases hx
    | succ m =>
      obtain ⟨y, h1, h2⟩ := drop_last p l m (by rw [h, hl])
      rw [List.getLast?_eq_getElem?, hl, Nat.add_sub_cancel, h1] at hx
      cases hx
      exact h2
  · intro h
    cases hl : l.length with
    | zero =>
      rw [List.length_eq_zero_iff.1 hl]
      rfl
    | succ m =>
      have hm : m < l.length := by omega
      have hlast : l.getLast? = some l[m] := by
        rw [List.getLast?_eq_getElem?, hl, Nat.add_sub_cancel, List.getElem?_eq_getElem hm]
      have hcov := drop_covers p l m _ (List.getElem?_eq_getElem hm) (h _ hlast)
      apply List.ext_getElem?
      intro i
      by_cases hi : i < (dropTrailing p l).length
      · exact drop_prefix p l i hi
      · rw [List.getElem?_eq_none (by omega), List.getElem?_eq_none (by omega)]

theorem trim_closed_row (n : Nat) (ih : ∀ t : Nest V n, Closed n t → trim n t = t) (rows : List (Nest V n))
    (h1 : ∀ r ∈ rows, Closed n r) (h2 : ∀ r, rows.getLast? = some r → noElements n r = false) :
    (dropTrailing (noElements n) rows).map (trim n) = rows := by
  rw [(drop_same _ _).2 h2]
  apply List.ext_getElem?
  intro i
  rw [List.getElem?_map]
  cases hr : rows[i]? with
  | none => rfl
  | some r => rw [Option.map_some, ih r (h1 r (List.mem_of_getElem? hr))]

theorem closed_row (n : Nat) (ih : ∀ t : Nest V n, trim n t = t → Closed n t) (rows : List (Nest V n))
    (h : (dropTrailing (noElements n) rows).map (trim n) = rows) :
    (∀ r ∈ rows, Closed n r) ∧ ∀ r, rows.getLast? = some r → noElements n r = false := by
  have hlen : (dropTrailing (noElements n) rows).length = rows.length := by
    rw [← congrArg List.length h, List.length_map]
  have hd : dropTrailing (noElements n) rows = rows := by
    apply List.ext_getElem?
    intro i
    by_cases hi : i < (dropTrailing (noElements n) rows).length
    · exact drop_prefix _ _ _ hi
    · rw [List.getElem?_eq_none (by omega), List.getElem?_eq_none (by omega)]
  refine ⟨fun r hr => ?_, (drop_same _ _).1 hd⟩
  obtain ⟨i, hi⟩ := List.getElem?_of_mem hr
  have := congrArg (fun l => l[i]?) h
  simp only [hd, List.getElem?_map, hi, Option.map_some, Option.some.injEq] at this
  exact ih r this

theorem closed_of_trim (n : Nat) (t : Nest V n) (h : trim n t = t) : Closed n t := by
  induction n with
  | zero => trivial
  | succ n ih => exact closed_row n ih t h

theorem trim_of_closed (n : Nat) (t : Nest V n) (h : Closed n t) : trim n t = t := by
  induction n with
  | zero => rfl
  | succ n ih => exact trim_closed_row n ih t h.1 h.2

/-- **C103**, in any number of dimensions the round trip gives the slice back exactly if nothing ends with a
row without elements. -/
theorem C103_exact (n : Nat) (t : Nest V n) : reshape n (elements n t) = t ↔ Closed n t := by
  rw [C103_roundtrip]
  exact ⟨closed_of_trim n t, trim_of_closed n t⟩

/-- A slice with an empty row and missing elements. -/
def exSlice : List (List (Option Nat)) := [[some 1, some 2], [], [none, some 4, none]]

example : reshape (V := Nat) 2 (elements (V := Nat) 2 exSlice) = exSlice := rfl

example : elements (V := Nat) 2 exSlice =
    [([0, 0], some 1), ([0, 1], some 2), ([2, 0], none), ([2, 1], some 4), ([2, 2], none)] := rfl

/-- **C103**, finding: the comment of the functions (npkd.py:107-111) says that the round trip is the identity. It
is not: an empty row at the end is lost. -/
theorem C103_not_identity :
    reshape (V := Nat) 2 (elements (V := Nat) 2 [[some 1, none], [some 2], []]) = ([[some 1, none], [some 2]] : List (List (Option Nat))) :=
  rfl

end Verif.Reshape
