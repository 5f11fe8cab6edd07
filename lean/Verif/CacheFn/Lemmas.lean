import Verif.CacheFn.Model

/-! Helper lemmas for C04. -/
namespace Verif.CacheFn

variable {F A V K C : Type}

/-- Everything the cache would return is the value of the function whose key it is. -/
def Consistent (e : Env F A V K) (l : Lru C K V) (c : C) : Prop :=
  ∀ f a v, l.peek c (e.key f a) = some v → e.fn f a = some v

theorem getAll_fst (l : Lru C K V) (h : LruLaws l) (c : C) (ks : List K) :
    (getAll l c ks).1 = ks.map (l.peek c) ∧ ∀ k, l.peek (getAll l c ks).2 k = l.peek c k := by
  induction ks generalizing c with
  | nil => simp [getAll]
  | cons k ks ih =>
    obtain ⟨h1, h2⟩ := ih (l.lookup c k)
    simp only [getAll, List.map_cons, List.cons.injEq, true_and]
    refine ⟨?_, ?_⟩
    · rw [h1]; congr 1; funext k'; exact h.peek_lookup c k k'
    · intro k'; rw [h2, h.peek_lookup]

theorem length_filterHits_le (h : Option (List (Option V) → List Bool)) (xs : List (Option V)) :
    (filterHits h xs).length ≤ xs.length := by
  unfold filterHits
  split
  · omega
  · split
    · omega
    · simp only [applyMask, List.length_zipWith]; omega

theorem getElem?_filterHits {h : Option (List (Option V) → List Bool)} {xs : List (Option V)}
    {i : Nat} {v : V} (hi : (filterHits h xs)[i]? = some (some v)) : xs[i]? = some (some v) := by
  unfold filterHits at hi
  split at hi
  · exact hi
  · split at hi
    · exact hi
    · simp only [applyMask, List.getElem?_zipWith] at hi
      split at hi
      · rename_i x m h1 h2
        simp at hi
        rw [h1, hi.2]
      · cases hi

theorem getElem?_filterHits_iff {h : Option (List (Option V) → List Bool)}
    {xs : List (Option V)} (hl : ∀ g, h = some g → ∀ ys, (g ys).length = ys.length)
    {i : Nat} {v : V} : (filterHits h xs)[i]? = some (some v) ↔
      xs[i]? = some (some v) ∧ ∀ g, h = some g → (g xs)[i]? = some true := by
  constructor
  · intro hi
    refine ⟨getElem?_filterHits hi, ?_⟩
    rintro g rfl
    have hx := getElem?_filterHits hi
    simp only [filterHits] at hi
    split at hi
    · rename_i he
      simp only [isEmpty, List.all_eq_true] at he
      have := he _ (List.mem_of_getElem? hx)
      simp at this
    · simp only [applyMask, List.getElem?_zipWith] at hi
      split at hi
      · rename_i x m h1 h2
        simp at hi
        rw [h2, hi.1]
      · cases hi
  · rintro ⟨hx, hg⟩
    unfold filterHits
    cases h with
    | none => exact hx
    | some g =>
      simp only
      split
      · exact hx
      · simp [applyMask, List.getElem?_zipWith, hx, hg g rfl]

theorem length_filterHits {h : Option (List (Option V) → List Bool)}
    (hl : ∀ g, h = some g → ∀ ys, (g ys).length = ys.length) (xs : List (Option V)) :
    (filterHits h xs).length = xs.length := by
  unfold filterHits
  cases h with
  | none => rfl
  | some g =>
    simp only
    split
    · rfl
    · simp [applyMask, hl g rfl]

theorem mem_putsOf {ks : List (Option K)} {vs : List (Option V)} {k : K} {v : V}
    (h : (k, v) ∈ putsOf ks vs) : ∃ i : Nat, ks[i]? = some (some k) ∧ vs[i]? = some (some v) := by
  induction ks generalizing vs with
  | nil => cases vs <;> simp [putsOf] at h
  | cons ko ks ih =>
    cases vs with
    | nil => cases ko <;> simp [putsOf] at h
    | cons vo vs =>
      have hrec : (k, v) ∈ putsOf ks vs → ∃ i : Nat, (ko :: ks)[i]? = some (some k) ∧
          (vo :: vs)[i]? = some (some v) := fun h' => by
        obtain ⟨i, h1, h2⟩ := ih h'
        exact ⟨i + 1, by simpa using h1, by simpa using h2⟩
      cases ko with
      | none => simp only [putsOf] at h; exact hrec h
      | some k' =>
        cases vo with
        | none => simp only [putsOf] at h; exact hrec h
        | some v' =>
          simp only [putsOf, List.mem_cons, Prod.mk.injEq] at h
          rcases h with ⟨rfl, rfl⟩ | h
          · exact ⟨0, by simp, by simp⟩
          · exact hrec h

theorem mem_putsOf_iff {ks : List (Option K)} {vs : List (Option V)} {k : K} {v : V} :
    (k, v) ∈ putsOf ks vs ↔ ∃ i : Nat, ks[i]? = some (some k) ∧ vs[i]? = some (some v) := by
  constructor
  · exact mem_putsOf
  · rintro ⟨i, h1, h2⟩
    induction ks generalizing vs i with
    | nil => simp at h1
    | cons ko ks ih =>
      cases vs with
      | nil => simp at h2
      | cons vo vs =>
        cases i with
        | zero => simp at h1 h2; subst h1; subst h2; simp [putsOf]
        | succ i =>
          have := ih i (by simpa using h1) (by simpa using h2)
          cases ko <;> cases vo <;> simp [putsOf, this]

end Verif.CacheFn
