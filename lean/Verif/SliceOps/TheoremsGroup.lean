import Verif.SliceOps.Theorems
import Verif.SliceOps.GroupBy

/-!
The theorems about `group_by_indices`. A value of the type of items is a parameter, as for `unique`.
-/

namespace Verif.SliceOps

variable {α : Type} {eq lt : α → α → Bool} {isNan : α → Bool}

/-- **C82 (groups).** `group_by_indices` makes of each row of the last dimension its groups of positions: two
positions are in one group if their keys have the same items, a position without all the items of its key is in no
group, and the positions of a group are in order. The groups are in the order of their first positions. The result
has one dimension more. -/
theorem C82_groups (he : Equality eq isNan) (sortable : Slice α → Bool) {x : Slice α} (rest : List (Slice α))
    (hr : 1 ≤ x.rank) (hs : ∀ s ∈ x :: rest, Wf s ∧ s.edges = x.edges) :
    ∃ t, groupByIndices eq lt false sortable x rest = .ok t ∧ Wf t ∧ t.rank = x.rank + 1 ∧
      RelAt (x.rank - 1) (fun row groups => ∃ (K : List (Option (List α))) (gs : List (List Nat)),
        row = .node (K.map .leaf) ∧ groups = groupsNode gs ∧ GroupsBy (sameKey eq) K gs ∧ ByAppearance gs)
        (view (keysOf x rest)) (view t) := by
  obtain ⟨t, h1, h2, h3, h4⟩ := groupByIndices_spec (lt := lt) he false (by simp) sortable rest hr
    (fun s hs' => ⟨(hs s hs').1, (hs s hs').2, by simp⟩)
  simp only [true_implies, Bool.false_eq_true, false_implies, and_true] at h4
  exact ⟨t, h1, h2, h3, h4⟩

/-- **C82 (sorted).** With `sort`, the groups are in the lexicographic order of their keys, if no key is not a
number. -/
theorem C82_sorted (he : Equality eq isNan) (ho : Ordering eq isNan lt) (sortable : Slice α → Bool)
    {x : Slice α} (rest : List (Slice α)) (hr : 1 ≤ x.rank)
    (hs : ∀ s ∈ x :: rest, Wf s ∧ s.edges = x.edges ∧ sortable s = true ∧
      ∀ v, some v ∈ s.items → isNan v = false) :
    ∃ t, groupByIndices eq lt true sortable x rest = .ok t ∧ Wf t ∧ t.rank = x.rank + 1 ∧
      RelAt (x.rank - 1) (fun row groups => ∃ (K : List (Option (List α))) (gs : List (List Nat)),
        row = .node (K.map .leaf) ∧ groups = groupsNode gs ∧ GroupsBy (sameKey eq) K gs ∧
        ByKey (keyLess eq lt) K gs)
        (view (keysOf x rest)) (view t) := by
  obtain ⟨t, h1, h2, h3, h4⟩ := groupByIndices_spec (lt := lt) he true (fun _ => ho) sortable rest hr
    (fun s hs' => ⟨(hs s hs').1, (hs s hs').2.1, fun _ => (hs s hs').2.2⟩)
  simp only [true_implies, Bool.true_eq_false, false_implies, true_and] at h4
  exact ⟨t, h1, h2, h3, h4⟩

/-- What the groups of a row are is determined: there is at most one list of groups in the order of their first
positions. -/
theorem C82_determined {β : Type} {same : β → β → Bool} {K : List (Option β)} {gs hs : List (List Nat)}
    (hg : GroupsBy same K gs) (hh : GroupsBy same K hs) (ag : ByAppearance gs) (ah : ByAppearance hs) :
    gs = hs := by
  have ext : ∀ (g h : List Nat), g.Pairwise (· < ·) → h.Pairwise (· < ·) → (∀ i, i ∈ g ↔ i ∈ h) → g = h := by
    intro g
    induction g with
    | nil =>
      intro h _ _ hm
      cases h with
      | nil => rfl
      | cons b h => simpa using (hm b).mpr (by simp)
    | cons a g ih =>
      intro h pg ph hm
      cases h with
      | nil => simpa using (hm a).mp (by simp)
      | cons b h =>
        have pg' := List.pairwise_cons.mp pg
        have ph' := List.pairwise_cons.mp ph
        have hab : a = b := by
          rcases List.mem_cons.mp ((hm a).mp (by simp)) with h1 | h1
          · exact h1
          · rcases List.mem_cons.mp ((hm b).mpr (by simp)) with h2 | h2
            · exact h2.symm
            · have := pg'.1 b h2
              have := ph'.1 a h1
              omega
        subst hab
        rw [ih h pg'.2 ph'.2]
        intro i
        constructor
        · intro hi
          rcases List.mem_cons.mp ((hm i).mp (List.mem_cons_of_mem _ hi)) with h1 | h1
          · have := pg'.1 i hi; omega
          · exact h1
        · intro hi
          rcases List.mem_cons.mp ((hm i).mpr (List.mem_cons_of_mem _ hi)) with h1 | h1
          · have := ph'.1 i hi; omega
          · exact h1
  have sub : ∀ {gs hs : List (List Nat)}, GroupsBy same K gs → GroupsBy same K hs → ∀ g ∈ gs, g ∈ hs := by
    intro gs hs hg hh g hmem
    obtain ⟨i, hi⟩ := List.exists_mem_of_ne_nil g (hg.nonempty g hmem)
    obtain ⟨k, l, hk, -, -⟩ := (hg.same g hmem i hi i).mp hi
    obtain ⟨h, hh1, hh2⟩ := hh.all i k hk
    have : g = h := ext g h (hg.increasing g hmem) (hh.increasing h hh1) fun j => by
      rw [hg.same g hmem i hi j, hh.same h hh1 i hh2 j]
    rw [this]
    exact hh1
  have fin : ∀ (gs hs : List (List Nat)), ByAppearance gs → ByAppearance hs → (∀ g ∈ gs, g ≠ []) →
      (∀ g ∈ hs, g ≠ []) → (∀ g, g ∈ gs ↔ g ∈ hs) → gs = hs := by
    intro gs
    induction gs with
    | nil =>
      intro hs _ _ _ _ hm
      cases hs with
      | nil => rfl
      | cons b h => simpa using (hm b).mpr (by simp)
    | cons a gs ih =>
      intro hs pg ph ng nh hm
      cases hs with
      | nil => simpa using (hm a).mp (by simp)
      | cons b hs =>
        have pg' := List.pairwise_cons.mp pg
        have ph' := List.pairwise_cons.mp ph
        have irr : ∀ g : List Nat, g ≠ [] → ∀ h : List Nat, h ≠ [] →
            (∀ i j, g.head? = some i → h.head? = some j → i < j) →
            (∀ i j, h.head? = some i → g.head? = some j → i < j) → False := by
          intro g ng h nh h1 h2
          cases g with
          | nil => exact ng rfl
          | cons x g => cases h with
            | nil => exact nh rfl
            | cons y h =>
              have := h1 x y rfl rfl
              have := h2 y x rfl rfl
              omega
        have hab : a = b := by
          rcases List.mem_cons.mp ((hm a).mp (by simp)) with h1 | h1
          · exact h1
          · rcases List.mem_cons.mp ((hm b).mpr (by simp)) with h2 | h2
            · exact h2.symm
            · exact (irr a (ng a (by simp)) b (nh b (by simp)) (pg'.1 b h2) (ph'.1 a h1)).elim
        subst hab
        rw [ih hs pg'.2 ph'.2 (fun g h => ng g (List.mem_cons_of_mem _ h))
          (fun g h => nh g (List.mem_cons_of_mem _ h))]
        intro g
        constructor
        · intro hi
          rcases List.mem_cons.mp ((hm g).mp (List.mem_cons_of_mem _ hi)) with h1 | h1
          · subst h1
            exact (irr g (ng g (by simp)) g (ng g (by simp)) (pg'.1 g hi) (pg'.1 g hi)).elim
          · exact h1
        · intro hi
          rcases List.mem_cons.mp ((hm g).mpr (List.mem_cons_of_mem _ hi)) with h1 | h1
          · subst h1
            exact (irr g (nh g (by simp)) g (nh g (by simp)) (ph'.1 g hi) (ph'.1 g hi)).elim
          · exact h1
  exact fin gs hs ag ah hg.nonempty hh.nonempty fun g => ⟨sub hg hh g, sub hh hg g⟩

/-- **C82 (errors).** An item has no positions to group. All the keys must have the shape of the first one, and
with `sort` a type with an order: the first key that is wrong decides about the error. -/
theorem C82_errors (sort : Bool) (sortable : Slice α → Bool) (x : Slice α) (rest : List (Slice α)) :
    (x.rank = 0 → groupByIndices eq lt sort sortable x rest = .error .item) ∧
    (1 ≤ x.rank → ∀ a s b, x :: rest = a ++ s :: b →
      (∀ t ∈ a, t.edges = x.edges ∧ (sort = true → sortable t = true)) →
      (s.edges ≠ x.edges → groupByIndices eq lt sort sortable x rest = .error .shape) ∧
      (s.edges = x.edges → sort = true → sortable s = false →
        groupByIndices eq lt sort sortable x rest = .error .sort)) := by
  constructor
  · intro h
    have : x.edges = [] := List.eq_nil_of_length_eq_zero h
    unfold groupByIndices
    rw [this]
    rfl
  · intro h a s b hab ha
    have key : ∀ (a : List (Slice α)), (∀ t ∈ a, t.edges = x.edges ∧ (sort = true → sortable t = true)) →
        checkKeys sort sortable x.edges (a ++ s :: b) = checkKeys sort sortable x.edges (s :: b) := by
      intro a
      induction a with
      | nil => intro _; rfl
      | cons t a ih =>
        intro ha
        have ht := ha t (by simp)
        have hb : (sort && !sortable t) = false := by
          cases sort with
          | false => rfl
          | true => simp [ht.2 rfl]
        rw [List.cons_append]
        conv => lhs; unfold checkKeys
        rw [if_neg (by simp [ht.1]), hb, ih (fun u hu => ha u (List.mem_cons_of_mem _ hu))]
        rfl
    have hl : ∃ e, x.edges.getLast? = some e := by
      cases hl : x.edges.getLast? with
      | none =>
        have he : x.edges = [] := List.getLast?_eq_none_iff.mp hl
        simp [Slice.rank, he] at h
      | some e => exact ⟨e, rfl⟩
    obtain ⟨e, he⟩ := hl
    constructor
    · intro hs
      unfold groupByIndices
      rw [he, hab, key a ha]
      unfold checkKeys
      rw [if_pos hs]
    · intro hs h1 h2
      unfold groupByIndices
      rw [he, hab, key a ha]
      unfold checkKeys
      rw [if_neg (by simp [hs]), h1, h2]
      rfl

/-- Example keys: two rows, and in the second key slice a missing item. -/
def exKeys : Slice (Option Nat) := ⟨[[2], [4, 1]], [some (some 2), some (some 1), some (some 2), some (some 1), some (some 7)]⟩
/-- Example keys. -/
def exKeys2 : Slice (Option Nat) := ⟨[[2], [4, 1]], [some (some 3), some (some 3), some (some 3), none, some (some 3)]⟩

/-- Example: the positions 0 and 2 have the same keys, position 3 has none. -/
example : exSlice (groupByIndices exEq exLt false (fun _ => true) exKeys [exKeys2]) =
    ⟨[[2], [2, 1], [2, 1, 1]], [some 0, some 2, some 1, some 0]⟩ := by decide +kernel

/-- Example: sorted. -/
example : exSlice (groupByIndices exEq exLt true (fun _ => true) exKeys [exKeys2]) =
    ⟨[[2], [2, 1], [1, 2, 1]], [some 1, some 0, some 2, some 0]⟩ := by decide +kernel

/-- Example: the hypotheses of C82 are met. -/
example : 1 ≤ exKeys.rank ∧ (∀ s ∈ [exKeys, exKeys2], Wf s ∧ s.edges = exKeys.edges ∧ (fun _ => true) s = true ∧
    ∀ v, some v ∈ s.items → v.isNone = false) := by
  refine ⟨by decide, ?_⟩
  intro s hs
  rcases List.mem_cons.mp hs with rfl | hs
  · refine ⟨by simp [Wf, Fits, exKeys], rfl, rfl, ?_⟩
    intro v hv
    simp [exKeys] at hv
    rcases hv with rfl | rfl | rfl | rfl | rfl <;> rfl
  · have : s = exKeys2 := by simpa using hs
    subst this
    refine ⟨by simp [Wf, Fits, exKeys2], rfl, rfl, ?_⟩
    intro v hv
    simp [exKeys2] at hv
    subst hv
    rfl

/-- Example: a value that is not a number is alone in its group. -/
example : exSlice (groupByIndices exEq exLt false (fun _ => true) ⟨[[3]], [some none, some (some 1), some none]⟩ []) =
    ⟨[[3], [1, 1, 1]], [some 0, some 1, some 2]⟩ := by decide +kernel

/-- Example: keys of another shape, and keys that have no order. -/
example : exErr (groupByIndices exEq exLt true (fun _ => true) exKeys [⟨[[5]], exKeys2.items⟩]) = some .shape ∧
    exErr (groupByIndices exEq exLt true (fun s => s.items.length == 4) exKeys [exKeys2]) = some .sort ∧
    exErr (groupByIndices exEq exLt true (fun _ => true) ⟨[], [some (some 1)]⟩ []) = some .item := by
  decide +kernel

end Verif.SliceOps
