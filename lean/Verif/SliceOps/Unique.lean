import Verif.SliceOps.Reverse

/-! Lemmas on `unique`. -/

namespace Verif.SliceOps

variable {α : Type} {eq : α → α → Bool} {isNan : α → Bool} {lt : α → α → Bool}

/-- The group a value was last seen in. -/
def lastGroup (eq : α → α → Bool) (x : α) : Seen α → Option Nat
  | [] => none
  | (y, i) :: rest => if eq y x then some i else lastGroup eq x rest

theorem seenBefore_none (x : α) (id : Nat) (map : Seen α) :
    seenBefore eq x id map = none ↔ lastGroup eq x map = some id := by
  induction map with
  | nil => simp [seenBefore, lastGroup]
  | cons p map ih =>
    obtain ⟨y, i⟩ := p
    unfold seenBefore lastGroup
    by_cases h : eq y x = true
    · rw [if_pos h, if_pos h]
      by_cases hi : i = id
      · simp [hi]
      · simp [hi]
    · rw [if_neg h, if_neg h, ← ih]
      cases seenBefore eq x id map <;> simp

theorem seenBefore_some (he : Equality eq isNan) (x : α) (id : Nat) (hx : isNan x = false)
    (map map' : Seen α) (h : seenBefore eq x id map = some map') (z : α) :
    lastGroup eq z map' = if eq x z then some id else lastGroup eq z map := by
  induction map generalizing map' with
  | nil =>
    simp [seenBefore] at h
    subst h
    simp [lastGroup]
  | cons p map ih =>
    obtain ⟨y, i⟩ := p
    unfold seenBefore at h
    by_cases hyx : eq y x = true
    · rw [if_pos hyx] at h
      by_cases hi : i ≠ id
      · rw [if_pos hi] at h
        cases h
        simp only [lastGroup]
        by_cases hyz : eq y z = true
        · rw [if_pos hyz, if_pos (he.trans _ _ _ (he.symm _ _ hyx) hyz)]
        · have : ¬ eq x z = true := fun hxz => hyz (he.trans _ _ _ hyx hxz)
          rw [if_neg hyz, if_neg this, if_neg hyz]
      · rw [if_neg hi] at h; simp at h
    · rw [if_neg hyx] at h
      cases hs : seenBefore eq x id map with
      | none => rw [hs] at h; simp at h
      | some r =>
        rw [hs] at h
        simp only [Option.some.injEq] at h
        subst h
        simp only [lastGroup]
        rw [ih r hs]
        by_cases hyz : eq y z = true
        · have : ¬ eq x z = true := fun hxz => hyx (he.trans _ _ _ hyz (he.symm _ _ hxz))
          rw [if_pos hyz, if_neg this, if_pos hyz]
        · rw [if_neg hyz, if_neg hyz]

/-- The values of the group that are in the map. -/
def SeenInv (eq : α → α → Bool) (id : Nat) (map : Seen α) (S : List α) : Prop :=
  (∀ z, lastGroup eq z map = some id ↔ ∃ y ∈ S, eq y z = true) ∧
    ∀ z j, lastGroup eq z map = some j → j ≤ id

theorem uniqueLoop_spec (he : Equality eq isNan) (sort : Bool) (id : Nat) (row : List (Option α))
    (map : Seen α) (vals : List α) (nan : Option α) (S : List α) (hI : SeenInv eq id map S)
    (hS : ∀ y ∈ S, isNan y = false) :
    ∃ map' S' out, SeenInv eq id map' S' ∧
      out = (distinct (same eq isNan) row).filter
        (fun z => !(S.any (eq · z)) && !(isNan z && nan.isSome)) ∧
      uniqueLoop eq isNan sort id row (map, vals, nan) =
        (map', (out.filter (fun z => !(sort && isNan z))).reverse ++ vals,
          nan.or (out.filter isNan).head?) := by
  induction row generalizing map vals nan S with
  | nil => exact ⟨map, S, [], hI, rfl, by simp [uniqueLoop]⟩
  | cons x row ih =>
    cases x with
    | none =>
      obtain ⟨map', S', out, h1, h2, h3⟩ := ih map vals nan S hI hS
      exact ⟨map', S', out, h1, h2, by rw [uniqueLoop, h3]⟩
    | some x =>
      by_cases hx : isNan x = true
      · cases nan with
        | none =>
          obtain ⟨map', S', out, h1, h2, h3⟩ :=
            ih map (if sort then vals else x :: vals) (some x) S hI hS
          refine ⟨map', S', x :: out, h1, ?_, ?_⟩
          · have hxS : S.any (eq · x) = false := by
              rw [List.any_eq_false]
              intro y hy hyx
              have := he.nan x y hx
              rw [he.symm _ _ hyx] at this
              simp at this
            rw [distinct, List.filter_cons, if_pos (by simp [hxS]), h2, List.filter_filter]
            congr 1
            apply List.filter_congr
            intro z _
            simp [same, he.nan x z hx, hx]
          · rw [uniqueLoop, if_pos hx, h3]
            cases sort <;> simp [hx]
        | some n =>
          obtain ⟨map', S', out, h1, h2, h3⟩ := ih map vals (some n) S hI hS
          refine ⟨map', S', out, h1, ?_, ?_⟩
          · rw [distinct, List.filter_cons, if_neg (by simp [hx]), h2, List.filter_filter]
            apply List.filter_congr
            intro z _
            simp only [same, he.nan x z hx, hx]
            cases isNan z <;> simp
          · rw [uniqueLoop, if_pos hx, h3]
      · have hx' : isNan x = false := by simpa using hx
        cases hs : seenBefore eq x id map with
        | none =>
          obtain ⟨y, hy, hyx⟩ := (hI.1 x).mp ((seenBefore_none x id map).mp hs)
          obtain ⟨map', S', out, h1, h2, h3⟩ := ih map vals nan S hI hS
          refine ⟨map', S', out, h1, ?_, ?_⟩
          · have hxS : S.any (eq · x) = true := List.any_eq_true.mpr ⟨y, hy, hyx⟩
            rw [distinct, List.filter_cons, if_neg (by simp [hxS]), h2, List.filter_filter]
            apply List.filter_congr
            intro z _
            cases hxz : eq x z with
            | false => simp [same, hxz, hx']
            | true =>
              have hzS : S.any (eq · z) = true :=
                List.any_eq_true.mpr ⟨y, hy, he.trans _ _ _ hyx hxz⟩
              simp [hzS]
          · unfold uniqueLoop
            simp only [if_neg hx, hs, h3]
        | some m =>
          have hnot : ¬ ∃ y ∈ S, eq y x = true := fun hh =>
            (by
              have := (seenBefore_none x id map).mpr ((hI.1 x).mpr hh)
              rw [hs] at this
              simp at this)
          have hl := seenBefore_some he x id hx' map m hs
          have hI' : SeenInv eq id m (x :: S) := by
            refine ⟨fun z => ?_, fun z j hz => ?_⟩
            · rw [hl]
              by_cases hxz : eq x z = true
              · rw [if_pos hxz]
                simp [hxz]
              · rw [if_neg hxz, hI.1]
                simp [hxz]
            · rw [hl] at hz
              by_cases hxz : eq x z = true
              · rw [if_pos hxz] at hz
                cases hz
                exact Nat.le_refl _
              · rw [if_neg hxz] at hz
                exact hI.2 z j hz
          obtain ⟨map', S', out, h1, h2, h3⟩ := ih m (x :: vals) nan (x :: S) hI' (by
            intro y hy
            rcases List.mem_cons.mp hy with rfl | hy
            · exact hx'
            · exact hS y hy)
          refine ⟨map', S', x :: out, h1, ?_, ?_⟩
          · have hxS : S.any (eq · x) = false := by
              rw [List.any_eq_false]
              intro y hy hyx
              exact hnot ⟨y, hy, hyx⟩
            rw [distinct, List.filter_cons, if_pos (by simp [hxS, hx']), h2, List.filter_filter]
            congr 1
            apply List.filter_congr
            intro z _
            simp only [same, hx', List.any_cons]
            cases eq x z <;> simp
          · unfold uniqueLoop
            simp only [if_neg hx, hs, h3]
            simp [hx']

/-! ### sorting -/

theorem insertSorted_perm (x : α) (l : List α) : (insertSorted lt x l).Perm (x :: l) := by
  induction l with
  | nil => exact .refl _
  | cons y l ih =>
    unfold insertSorted
    by_cases h : lt x y = true
    · rw [if_pos h]
    · rw [if_neg h]
      exact (List.Perm.cons y ih).trans (List.Perm.swap x y l)

theorem sortValues_perm (l : List α) : (sortValues lt l).Perm l := by
  induction l with
  | nil => exact .refl _
  | cons x l ih => exact (insertSorted_perm x _).trans (ih.cons x)

theorem insertSorted_sorted (tr : ∀ x y z, lt x y = true → lt y z = true → lt x z = true) (x : α)
    (l : List α) (hl : l.Pairwise (fun a b => lt a b = true))
    (ht : ∀ y ∈ l, lt x y = true ∨ lt y x = true) :
    (insertSorted lt x l).Pairwise (fun a b => lt a b = true) := by
  induction l with
  | nil => simp [insertSorted]
  | cons y l ih =>
    have hl' := List.pairwise_cons.mp hl
    unfold insertSorted
    by_cases h : lt x y = true
    · rw [if_pos h]
      refine List.pairwise_cons.mpr ⟨?_, hl⟩
      intro z hz
      rcases List.mem_cons.mp hz with rfl | hz
      · exact h
      · exact tr _ _ _ h (hl'.1 z hz)
    · rw [if_neg h]
      refine List.pairwise_cons.mpr ⟨?_, ih hl'.2 (fun z hz => ht z (by simp [hz]))⟩
      intro z hz
      have := (insertSorted_perm (lt := lt) x l).mem_iff.mp hz
      rcases List.mem_cons.mp this with rfl | hz
      · rcases ht y (by simp) with h' | h'
        · exact absurd h' h
        · exact h'
      · exact hl'.1 z hz

theorem sortValues_sorted (tr : ∀ x y z, lt x y = true → lt y z = true → lt x z = true) (l : List α)
    (ht : l.Pairwise (fun a b => lt a b = true ∨ lt b a = true)) :
    (sortValues lt l).Pairwise (fun a b => lt a b = true) := by
  induction l with
  | nil => simp [sortValues]
  | cons x l ih =>
    have ht' := List.pairwise_cons.mp ht
    refine insertSorted_sorted tr x _ (ih ht'.2) ?_
    intro y hy
    exact ht'.1 y ((sortValues_perm l).mem_iff.mp hy)

theorem distinct_pairwise (sm : α → α → Bool) (row : List (Option α)) :
    (distinct sm row).Pairwise (fun x y => sm x y = false) := by
  induction row with
  | nil => simp [distinct]
  | cons x row ih =>
    cases x with
    | none => exact ih
    | some x =>
      refine List.pairwise_cons.mpr ⟨?_, List.Pairwise.filter _ ih⟩
      intro y hy
      simpa using (List.mem_filter.mp hy).2

/-- What `unique` leaves of a group. -/
def uniqueRow (eq : α → α → Bool) (isNan : α → Bool) (lt : α → α → Bool) (sort : Bool)
    (row : List (Option α)) : List α :=
  if sort then sortValues lt ((distinct (same eq isNan) row).filter (fun z => !isNan z)) ++
    (distinct (same eq isNan) row).filter isNan
  else distinct (same eq isNan) row

theorem filter_nan (row : List (Option α)) :
    (((distinct (same eq isNan) row).filter isNan).head?).toList =
      (distinct (same eq isNan) row).filter isNan := by
  have hp := List.Pairwise.filter isNan (distinct_pairwise (same eq isNan) row)
  match h : (distinct (same eq isNan) row).filter isNan with
  | [] => rfl
  | [x] => rfl
  | x :: y :: l =>
    rw [h] at hp
    have hxy := (List.pairwise_cons.mp hp).1 y (by simp)
    have hx := (List.mem_filter.mp (show x ∈ List.filter isNan _ from by rw [h]; simp)).2
    have hy := (List.mem_filter.mp (show y ∈ List.filter isNan _ from by rw [h]; simp)).2
    simp [same, hx, hy] at hxy

theorem uniqueGroups_spec (he : Equality eq isNan) (sort : Bool) (rows : List (List (Option α)))
    (id : Nat) (map : Seen α) (hm : ∀ z j, lastGroup eq z map = some j → j < id) :
    uniqueGroups eq isNan lt sort id map rows = rows.map (uniqueRow eq isNan lt sort) := by
  induction rows generalizing id map with
  | nil => rfl
  | cons row rows ih =>
    have hI : SeenInv eq id map [] := by
      refine ⟨fun z => ?_, fun z j h => Nat.le_of_lt (hm z j h)⟩
      constructor
      · intro h; exact absurd (hm z id h) (Nat.lt_irrefl _)
      · rintro ⟨y, hy, -⟩; simp at hy
    obtain ⟨map', S', out, h1, h2, h3⟩ := uniqueLoop_spec he sort id row map [] none [] hI (by simp)
    have hout : out = distinct (same eq isNan) row := by
      rw [h2]
      apply List.filter_eq_self.mpr
      simp
    have hr := ih (id + 1) map' (fun z j h => Nat.lt_succ_of_le (h1.2 z j h))
    unfold uniqueGroups
    simp only [h3, List.map_cons]
    rw [hr]
    congr 1
    subst hout
    cases sort with
    | false => simp [uniqueRow, List.filter_eq_self]
    | true =>
      simp only [uniqueRow, if_true, Option.none_or, filter_nan, List.append_nil, List.reverse_reverse,
        Bool.true_and]

theorem unique_spec (he : Equality eq isNan) (sortable sort : Bool) {s : Slice α} (hs : Wf s)
    (hr : 1 ≤ s.rank) (hsort : sort = true → sortable = true) :
    ∃ t, unique eq isNan lt sortable sort s = .ok t ∧ Wf t ∧ t.rank = s.rank ∧
      view t = mapAt (s.rank - 1)
        (itemsNode fun row => (uniqueRow eq isNan lt sort row).map fun x => .leaf (some x)) (view s) := by
  unfold unique
  cases hl : s.edges.getLast? with
  | none =>
    have he : s.edges = [] := List.getLast?_eq_none_iff.mp hl
    simp [Slice.rank, he] at hr
  | some e =>
    obtain ⟨U, hU⟩ := List.getLast?_eq_some_iff.mp hl
    have hs' : Fits 1 (U ++ [e]) s.items.length := by rw [← hU]; exact hs
    obtain ⟨k, hk, hk2, hse⟩ := Fits.append.mp hs'
    have hse : e.sum = s.items.length := hse
    have hg := uniqueGroups_spec (lt := lt) he sort (chop e s.items) 1 [] (by simp [lastGroup])
    have hif : (sort && !sortable) = false := by
      cases sort <;> simp_all
    simp only [hif, Bool.false_eq_true, if_false, hg]
    have hgl : ((chop e s.items).map (uniqueRow eq isNan lt sort)).length = k := by
      rw [List.length_map, chop_eq, parts_length, hk2]
    generalize hgs : (chop e s.items).map (uniqueRow eq isNan lt sort) = gs at *
    refine ⟨_, rfl, ?_, ?_, ?_⟩
    · show Fits 1 (replaceLast s.edges _) _
      rw [hU]
      simp only [replaceLast, List.dropLast_concat]
      refine Fits.append.mpr ⟨k, hk, by simpa using hgl, ?_⟩
      show _ = _
      rw [List.length_map, List.length_flatten]
    · simp [Slice.rank, replaceLast, hU]
    · apply view_of
      have hz := nest_map U (itemsNode fun row =>
        (uniqueRow eq isNan lt sort row).map fun x => .leaf (some x)) (nest [e] (s.items.map Tree.leaf))
      rw [← nest_append, ← hU, nest_view hs] at hz
      have hr' : s.rank - 1 = U.length := by simp [Slice.rank, hU]
      rw [hr']
      refine Eq.trans ?_ hz.symm
      show nest (replaceLast s.edges _) _ = _
      rw [hU]
      simp only [replaceLast, List.dropLast_concat]
      rw [nest_append]
      congr 1
      simp only [nest]
      rw [parts_map, parts_map, parts_of_flatten, ← hgs, chop_eq, parts_map]
      simp only [List.map_map]
      apply List.map_congr_left
      intro r _
      simp only [Function.comp, itemsNode, List.map_map]
      congr 1
      have : List.map (Tree.item ∘ Tree.leaf) r = r := by
        conv => rhs; rw [← List.map_id r]
        apply List.map_congr_left
        intro x _
        rfl
      rw [this]
      apply List.map_congr_left
      intro x _
      rfl

end Verif.SliceOps
