import Verif.View.InverseSelectTheorems

/-! C22: `group_by`; C23: `collapse`. -/
namespace Verif.View

set_option linter.unusedSectionVars false

variable {A E : Type}

/-! ### Specification -/

/-- The items with their keys: the items of the other views, or the item itself if there
are no other views. -/
def keyedRows (xs : List (Obj A)) (cols : List (List (Obj A))) : List (Obj A × List (Obj A)) :=
  xs.zipIdx.map fun xi =>
    (xi.1, if cols.isEmpty then [xi.1] else cols.map fun c => c.getD xi.2 .none)

/-- The rows without a missing key. -/
def presentRows (rows : List (Obj A × List (Obj A))) : List (Obj A × List (Obj A)) :=
  rows.filter fun r => !r.2.any Obj.isNone

/-- The different keys in the order of their first appearance. -/
def firstSeen (keyEq : List (Obj A) → List (Obj A) → Bool) : List (List (Obj A)) → List (List (Obj A))
  | [] => []
  | k :: ks => k :: (firstSeen keyEq ks).filter fun k' => !keyEq k k'

/-- The items with the given key, in their order. -/
def members (keyEq : List (Obj A) → List (Obj A) → Bool) (rows : List (Obj A × List (Obj A)))
    (k : List (Obj A)) : List (Obj A) :=
  (rows.filter fun r => keyEq k r.2).map (·.1)

/-- One group for each different key, with the items of that key in their order. The groups
are in the order of first appearance, or sorted by the key. -/
def IsGrouping (keyEq lt : List (Obj A) → List (Obj A) → Bool) (sort : Bool)
    (rows : List (Obj A × List (Obj A))) (gs : List (List (Obj A))) : Prop :=
  ∃ keys, gs = keys.map (members keyEq rows) ∧
    (sort = false → keys = firstSeen keyEq (rows.map (·.2))) ∧
    (sort = true → keys.Perm (firstSeen keyEq (rows.map (·.2))) ∧
      keys.Pairwise fun a b => lt a b = true)

/-- Equality of keys is an equivalence relation. -/
structure KeyEquiv (keyEq : List (Obj A) → List (Obj A) → Bool) : Prop where
  refl : ∀ a, keyEq a a = true
  symm : ∀ a b, keyEq a b = true → keyEq b a = true
  trans : ∀ a b c, keyEq a b = true → keyEq b c = true → keyEq a c = true

/-- The order on keys is total. -/
structure KeyOrder (keyEq lt : List (Obj A) → List (Obj A) → Bool) : Prop where
  trans : ∀ a b c, lt a b = true → lt b c = true → lt a c = true
  total : ∀ a b, keyEq a b = false → lt a b = true ∨ lt b a = true

/-! ### Lemmas -/

theorem firstSeen_snoc (keyEq : List (Obj A) → List (Obj A) → Bool) (ks : List (List (Obj A)))
    (k : List (Obj A)) : firstSeen keyEq (ks ++ [k]) =
      if ks.any (fun a => keyEq a k) then firstSeen keyEq ks else firstSeen keyEq ks ++ [k] := by
  induction ks with
  | nil => simp [firstSeen]
  | cons a ks ih =>
    simp only [List.cons_append, firstSeen, ih, List.any_cons]
    by_cases h : ks.any (fun a => keyEq a k) = true
    · simp [h]
    · simp only [h, Bool.or_false]
      cases hk : keyEq a k <;> simp [hk]

theorem mem_firstSeen {keyEq : List (Obj A) → List (Obj A) → Bool} {ks : List (List (Obj A))}
    {k : List (Obj A)} (h : k ∈ firstSeen keyEq ks) : k ∈ ks := by
  induction ks with
  | nil => simp [firstSeen] at h
  | cons a ks ih =>
    simp only [firstSeen, List.mem_cons, List.mem_filter] at h
    rcases h with h | ⟨h, _⟩
    · simp [h]
    · exact List.mem_cons_of_mem _ (ih h)

theorem any_firstSeen {keyEq : List (Obj A) → List (Obj A) → Bool} (he : KeyEquiv keyEq)
    (ks : List (List (Obj A))) (k : List (Obj A)) :
    (firstSeen keyEq ks).any (fun a => keyEq a k) = ks.any (fun a => keyEq a k) := by
  induction ks with
  | nil => rfl
  | cons a ks ih =>
    simp only [firstSeen, List.any_cons]
    cases hk : keyEq a k with
    | true => simp
    | false =>
      simp only [Bool.false_or]
      rw [← ih]
      apply Bool.eq_iff_iff.2
      simp only [List.any_eq_true, List.mem_filter, Bool.not_eq_true']
      constructor
      · rintro ⟨b, ⟨h1, _⟩, h2⟩; exact ⟨b, h1, h2⟩
      · rintro ⟨b, h1, h2⟩
        refine ⟨b, ⟨h1, ?_⟩, h2⟩
        cases hab : keyEq a b with
        | false => rfl
        | true => rw [he.trans a b k hab h2] at hk; cases hk

theorem firstSeen_pairwise {keyEq : List (Obj A) → List (Obj A) → Bool}
    (ks : List (List (Obj A))) : (firstSeen keyEq ks).Pairwise fun a b => keyEq a b = false := by
  induction ks with
  | nil => exact List.Pairwise.nil
  | cons a ks ih =>
    refine List.pairwise_cons.2 ⟨?_, ih.filter _⟩
    intro b hb
    simpa using (List.mem_filter.1 hb).2

theorem members_snoc (keyEq : List (Obj A) → List (Obj A) → Bool)
    (rows : List (Obj A × List (Obj A))) (x : Obj A) (key k : List (Obj A)) :
    members keyEq (rows ++ [(x, key)]) k =
      members keyEq rows k ++ if keyEq k key then [x] else [] := by
  unfold members
  rw [List.filter_append, List.map_append]
  cases h : keyEq k key <;> simp [h]

theorem addToGroup_spec {keyEq : List (Obj A) → List (Obj A) → Bool} (he : KeyEquiv keyEq)
    (key : List (Obj A)) (x : Obj A) (m : List (Obj A) → List (Obj A)) (K : List (List (Obj A)))
    (hp : K.Pairwise fun a b => keyEq a b = false)
    (hnew : K.any (fun a => keyEq a key) = false → m key = []) :
    addToGroup keyEq key x (K.map fun k => (k, m k)) =
      (if K.any (fun a => keyEq a key) then K else K ++ [key]).map
        fun k => (k, m k ++ if keyEq k key then [x] else []) := by
  induction K with
  | nil => simp [addToGroup, hnew rfl, he.refl]
  | cons a K ih =>
    obtain ⟨h1, h2⟩ := List.pairwise_cons.1 hp
    simp only [List.map_cons, addToGroup, List.any_cons]
    by_cases ha : keyEq a key = true
    · simp only [ha, Bool.true_or, if_true, List.map_cons, List.cons.injEq, true_and]
      apply List.map_congr_left
      intro b hb
      have : keyEq b key = false := by
        cases hbk : keyEq b key with
        | false => rfl
        | true =>
          have := he.trans a key b ha (he.symm _ _ hbk)
          rw [h1 b hb] at this; cases this
      simp [this]
    · have ha' : keyEq a key = false := by simpa using ha
      simp only [ha', Bool.false_or, Bool.false_eq_true, if_false]
      rw [ih h2 (fun hh => hnew (by simp [ha', hh]))]
      split <;> simp [ha']

theorem members_none {keyEq : List (Obj A) → List (Obj A) → Bool} (he : KeyEquiv keyEq)
    {rows : List (Obj A × List (Obj A))} {key : List (Obj A)}
    (h : (rows.map (·.2)).any (fun a => keyEq a key) = false) : members keyEq rows key = [] := by
  unfold members
  rw [List.map_eq_nil_iff, List.filter_eq_nil_iff]
  intro r hr hk
  have : (rows.map (·.2)).any (fun a => keyEq a key) = true :=
    List.any_eq_true.2 ⟨r.2, List.mem_map.2 ⟨r, hr, rfl⟩, he.symm _ _ hk⟩
  rw [h] at this; cases this

def groupsOf (keyEq : List (Obj A) → List (Obj A) → Bool) (rows : List (Obj A × List (Obj A))) :
    List (List (Obj A) × List (Obj A)) :=
  (firstSeen keyEq (rows.map (·.2))).map fun k => (k, members keyEq rows k)

theorem addToGroup_groupsOf {keyEq : List (Obj A) → List (Obj A) → Bool} (he : KeyEquiv keyEq)
    (rows : List (Obj A × List (Obj A))) (x : Obj A) (key : List (Obj A)) :
    addToGroup keyEq key x (groupsOf keyEq rows) = groupsOf keyEq (rows ++ [(x, key)]) := by
  unfold groupsOf
  rw [addToGroup_spec he key x (members keyEq rows) _ (firstSeen_pairwise _)
    (fun h => members_none he (by rw [← any_firstSeen he]; exact h))]
  rw [any_firstSeen he, List.map_append]
  simp only [List.map_cons, List.map_nil, firstSeen_snoc]
  apply List.map_congr_left
  intro k _
  rw [members_snoc]

/-- The rows as the loop reads them. -/
def withKey (r : Obj A × List (Obj A)) : Obj A × List (Obj A) :=
  (r.1, if r.2.isEmpty then [r.1] else r.2)

theorem groupLoop_spec {keyEq : List (Obj A) → List (Obj A) → Bool} (he : KeyEquiv keyEq)
    (rows seen : List (Obj A × List (Obj A))) :
    groupLoop keyEq rows (groupsOf keyEq seen) =
      groupsOf keyEq (seen ++ presentRows (rows.map withKey)) := by
  induction rows generalizing seen with
  | nil => simp [groupLoop, presentRows]
  | cons r rows ih =>
    obtain ⟨x, ks⟩ := r
    have hp : presentRows (((x, ks) :: rows).map withKey) =
        if (withKey (x, ks)).2.any Obj.isNone then presentRows (rows.map withKey)
        else withKey (x, ks) :: presentRows (rows.map withKey) := by
      simp only [presentRows, List.map_cons, List.filter_cons]
      cases (withKey (x, ks)).2.any Obj.isNone <;> simp
    rw [hp]
    simp only [groupLoop]
    have hk : (withKey (x, ks)).2 = if ks.isEmpty then [x] else ks := rfl
    rw [← hk]
    split
    · exact ih seen
    · rw [addToGroup_groupsOf he, ih]
      simp [withKey]

theorem insertGroup_perm (lt : List (Obj A) → List (Obj A) → Bool)
    (g : List (Obj A) × List (Obj A)) (gs : List (List (Obj A) × List (Obj A))) :
    (insertGroup lt g gs).Perm (g :: gs) := by
  induction gs with
  | nil => exact List.Perm.refl _
  | cons a gs ih =>
    simp only [insertGroup]
    split
    · exact List.Perm.refl _
    · exact (List.Perm.cons a ih).trans (List.Perm.swap g a gs)

theorem insertGroup_sorted {keyEq lt : List (Obj A) → List (Obj A) → Bool} (ho : KeyOrder keyEq lt)
    (g : List (Obj A) × List (Obj A)) (gs : List (List (Obj A) × List (Obj A)))
    (hs : gs.Pairwise fun a b => lt a.1 b.1 = true) (hd : ∀ a ∈ gs, keyEq a.1 g.1 = false) :
    (insertGroup lt g gs).Pairwise fun a b => lt a.1 b.1 = true := by
  induction gs with
  | nil => simp [insertGroup]
  | cons a gs ih =>
    obtain ⟨h1, h2⟩ := List.pairwise_cons.1 hs
    simp only [insertGroup]
    split
    · rename_i hlt
      refine List.pairwise_cons.2 ⟨?_, hs⟩
      intro b hb
      rcases List.mem_cons.1 hb with rfl | hb
      · exact hlt
      · exact ho.trans _ _ _ hlt (h1 b hb)
    · rename_i hlt
      refine List.pairwise_cons.2 ⟨?_, ih h2 fun b hb => hd b (List.mem_cons_of_mem _ hb)⟩
      intro b hb
      rcases List.mem_cons.1 ((insertGroup_perm lt g gs).mem_iff.1 hb) with rfl | hb
      · rcases ho.total a.1 b.1 (hd a (by simp)) with h | h
        · exact h
        · exact absurd h hlt
      · exact h1 b hb

theorem sortGroups_spec {keyEq lt : List (Obj A) → List (Obj A) → Bool}
    (ho : KeyOrder keyEq lt) (gs : List (List (Obj A) × List (Obj A)))
    (hd : gs.Pairwise fun a b => keyEq a.1 b.1 = false) :
    (sortGroups lt gs).Perm gs ∧ (sortGroups lt gs).Pairwise fun a b => lt a.1 b.1 = true := by
  have gen : ∀ (gs acc : List (List (Obj A) × List (Obj A))),
      gs.Pairwise (fun a b => keyEq a.1 b.1 = false) →
      acc.Pairwise (fun a b => lt a.1 b.1 = true) →
      (∀ a ∈ acc, ∀ b ∈ gs, keyEq a.1 b.1 = false) →
      (gs.foldl (fun acc g => insertGroup lt g acc) acc).Perm (acc ++ gs) ∧
      (gs.foldl (fun acc g => insertGroup lt g acc) acc).Pairwise fun a b => lt a.1 b.1 = true := by
    intro gs
    induction gs with
    | nil => intro acc _ h _; simp [h]
    | cons g gs ih =>
      intro acc h1 h2 h3
      obtain ⟨g1, g2⟩ := List.pairwise_cons.1 h1
      have := ih (insertGroup lt g acc) g2
        (insertGroup_sorted ho g acc h2 fun a ha => h3 a ha g (by simp))
        (by
          intro a ha b hb
          rcases List.mem_cons.1 ((insertGroup_perm lt g acc).mem_iff.1 ha) with rfl | ha
          · exact g1 b hb
          · exact h3 a ha b (List.mem_cons_of_mem _ hb))
      refine ⟨?_, this.2⟩
      refine this.1.trans ?_
      refine ((insertGroup_perm lt g acc).append_right gs).trans ?_
      exact (List.perm_middle (a := g) (l₁ := acc) (l₂ := gs)).symm
  have := gen gs [] hd List.Pairwise.nil (by simp)
  rw [List.nil_append] at this
  exact this

theorem zipRows_some (xs : List (Obj A)) (cols : List (List (Obj A)))
    (hl : ∀ c ∈ cols, c.length = xs.length) :
    zipRows xs cols = some (xs.zipIdx.map fun xi => (xi.1, cols.map fun c => c.getD xi.2 .none)) := by
  induction xs generalizing cols with
  | nil =>
    have : cols.all (·.isEmpty) = true := by
      rw [List.all_eq_true]
      intro c hc
      simpa using hl c hc
    simp [zipRows, this]
  | cons x xs ih =>
    have h1 : cols.all (fun a => !a.isEmpty) = true := by
      rw [List.all_eq_true]
      intro c hc
      have := hl c hc
      cases c <;> simp at this ⊢
    simp only [zipRows, h1, if_true]
    rw [ih (cols.map List.tail) (by
      intro c hc
      obtain ⟨c', hc', rfl⟩ := List.mem_map.1 hc
      have := hl c' hc'
      simp at this ⊢; omega)]
    simp only [Option.map_some, List.zipIdx_cons, List.map_cons, Option.some.injEq, List.cons.injEq,
      Prod.mk.injEq, true_and]
    constructor
    · apply List.map_congr_left
      intro c _
      cases c <;> simp
    · simp only [List.map_map, Function.comp_def]
      rw [show (0 + 1 : Nat) = 1 from rfl]
      have : xs.zipIdx 1 = xs.zipIdx.map fun xi => (xi.1, xi.2 + 1) := by
        rw [List.zipIdx_succ]
      rw [this, List.map_map]
      apply List.map_congr_left
      intro xi _
      simp only [Function.comp_def, Prod.mk.injEq, true_and]
      apply List.map_congr_left
      intro c _
      cases c <;> simp

theorem zipRows_none (xs : List (Obj A)) (cols : List (List (Obj A)))
    (hl : ∃ c ∈ cols, c.length ≠ xs.length) : zipRows xs cols = none := by
  induction xs generalizing cols with
  | nil =>
    obtain ⟨c, hc, hne⟩ := hl
    have : cols.all (·.isEmpty) = false := by
      rw [List.all_eq_false]
      refine ⟨c, hc, ?_⟩
      cases c <;> simp at hne ⊢
    simp [zipRows, this]
  | cons x xs ih =>
    simp only [zipRows]
    split
    · rename_i hall
      rw [ih (cols.map List.tail) (by
        obtain ⟨c, hc, hne⟩ := hl
        refine ⟨c.tail, List.mem_map.2 ⟨c, hc, rfl⟩, ?_⟩
        have := (List.all_eq_true.1 hall) c hc
        cases c with
        | nil => simp at this
        | cons a c => simp at hne ⊢; exact hne)]
      rfl
    · rfl

theorem withKey_rows (xs : List (Obj A)) (cols : List (List (Obj A))) :
    (xs.zipIdx.map fun xi => (xi.1, cols.map fun c => c.getD xi.2 .none)).map withKey =
      keyedRows xs cols := by
  unfold keyedRows
  rw [List.map_map]
  apply List.map_congr_left
  intro xi _
  simp only [withKey, Function.comp_def, List.isEmpty_map]
  
theorem groupByImpl_spec {keyEq lt : List (Obj A) → List (Obj A) → Bool} (he : KeyEquiv keyEq)
    (sort : Bool) (ho : sort = true → KeyOrder keyEq lt) (xs : List (Obj A))
    (cols : List (List (Obj A))) (hl : ∀ c ∈ cols, c.length = xs.length) :
    ∃ gs : List (List (Obj A)), groupByImpl (E := E) keyEq lt sort xs cols = .ok (gs.map .tup) ∧
      IsGrouping keyEq lt sort (presentRows (keyedRows xs cols)) gs := by
  unfold groupByImpl
  rw [zipRows_some xs cols hl]
  have hg := groupLoop_spec he
    (xs.zipIdx.map fun xi => (xi.1, cols.map fun c => c.getD xi.2 .none)) []
  rw [withKey_rows, List.nil_append] at hg
  have h0 : groupsOf keyEq ([] : List (Obj A × List (Obj A))) = [] := rfl
  rw [h0] at hg
  simp only [hg]
  generalize presentRows (keyedRows xs cols) = rows
  cases sort with
  | false =>
    refine ⟨(groupsOf keyEq rows).map (·.2), by simp, ?_⟩
    refine ⟨firstSeen keyEq (rows.map (·.2)), ?_, fun _ => rfl, fun h => by cases h⟩
    simp [groupsOf]
  | true =>
    obtain ⟨hp, hs⟩ := sortGroups_spec (ho rfl) (groupsOf keyEq rows) (by
      unfold groupsOf
      rw [List.pairwise_map]
      exact firstSeen_pairwise _)
    refine ⟨(sortGroups lt (groupsOf keyEq rows)).map (·.2), by simp, ?_⟩
    refine ⟨(sortGroups lt (groupsOf keyEq rows)).map Prod.fst, ?_, ?_, fun _ => ⟨?_, ?_⟩⟩
    rotate_left
    · intro h; cases h
    · have := hp.map Prod.fst
      refine this.trans ?_
      unfold groupsOf
      rw [List.map_map]
      have : (Prod.fst ∘ fun k => (k, members keyEq rows k)) = (id : List (Obj A) → _) := rfl
      rw [this, List.map_id]
    · rw [List.pairwise_map]; exact hs
    · rw [List.map_map]
      apply List.map_congr_left
      intro g hg
      have := hp.mem_iff.1 hg
      unfold groupsOf at this
      obtain ⟨k, _, rfl⟩ := List.mem_map.1 this
      rfl

theorem mapM_items (cols : List (List (Obj A))) :
    (cols.map Obj.tup).mapM Obj.items? = some cols := by
  induction cols with
  | nil => rfl
  | cons c cols ih =>
    simp only [List.map_cons, List.mapM_cons, ih]
    rfl

theorem tups_of_nested {vs : List (View A)} {k : Nat} (hw : ∀ v ∈ vs, Nested (k + 1) v.obj)
    {p : List Nat} (hp : p.length = k) {items : List (Obj A)}
    (hi : (vs.map fun v => v.obj.at? p) = items.map some) :
    ∃ cols : List (List (Obj A)), items = cols.map .tup ∧ cols.length = vs.length ∧
      ∀ (j : Nat) v c, vs[j]? = some v → cols[j]? = some c → v.obj.at? p = some (.tup c) := by
  induction vs generalizing items with
  | nil =>
    cases items with
    | nil => exact ⟨[], rfl, rfl, by simp⟩
    | cons i is => simp at hi
  | cons v vs ih =>
    cases items with
    | nil => simp at hi
    | cons i is =>
      simp only [List.map_cons, List.cons.injEq] at hi
      obtain ⟨xs, rfl⟩ := tup_at (hw v (by simp)) hp hi.1
      obtain ⟨cols, rfl, h2, h3⟩ := ih (fun u hu => hw u (List.mem_cons_of_mem _ hu)) hi.2
      refine ⟨xs :: cols, rfl, by simp [h2], ?_⟩
      intro j u c hu hc
      cases j with
      | zero =>
        simp only [List.getElem?_cons_zero, Option.some.injEq] at hu hc
        subst hu; subst hc; exact hi.1
      | succ j => exact h3 j u c (by simpa using hu) (by simpa using hc)

/-- The function that `groupByFn` computes, without the heap. -/
def groupByPure (keyEq lt : List (Obj A) → List (Obj A) → Bool) (sort : Bool) :
    List (Obj A) → Except (Err E) (Obj A)
  | [] => .error .typeError
  | x :: args =>
    match x.items?, args.mapM Obj.items? with
    | some xs, some as => (groupByImpl keyEq lt sort xs as).map .tup
    | _, _ => .error .typeError

theorem groupByFn_pure (keyEq lt : List (Obj A) → List (Obj A) → Bool) (sort : Bool)
    (xs : List (Obj A)) (h : Heap A) :
    groupByFn (E := E) keyEq lt sort xs h = pureM (groupByPure keyEq lt sort xs) h := by
  cases xs with
  | nil => rfl
  | cons x xs =>
    simp only [groupByFn, groupByPure]
    cases x.items? <;> cases xs.mapM Obj.items? <;> rfl

/-! ### C22 -/

theorem groupBy_unfold (keyEq lt : List (Obj A) → List (Obj A) → Bool) (v : View A)
    (args : List (View A)) (k : Nat) (hd : ∀ a ∈ v :: args, a.depth = k + 1) (sort : Bool)
    (h : Heap A) :
    groupBy (E := E) keyEq lt v args sort h =
      match map_ (groupByFn (E := E) keyEq lt sort) ((v :: args).map fun a => ⟨a.obj, k⟩) 0 none h with
      | .error e => .error e
      | .ok (r, h') => .ok ({ r with depth := r.depth + 2 }, h') := by
  unfold groupBy
  rw [if_neg (by have := hd v (by simp); omega)]
  have : args.any (fun a => a.depth != v.depth) = false := by
    rw [List.any_eq_false]
    intro a ha
    have h1 := hd a (List.mem_cons_of_mem _ ha)
    have h2 := hd v (by simp)
    simp [h1, h2]
  rw [this]
  simp only [Bool.false_eq_true, if_false]
  have : (v :: args).map (fun a => ({ a with depth := a.depth - 1 } : View A)) =
      (v :: args).map fun a => ⟨a.obj, k⟩ := by
    apply List.map_congr_left
    intro a ha
    rw [hd a ha]
    rfl
  rw [this]
  all_goals (cases map_ (groupByFn (E := E) keyEq lt sort) ((v :: args).map fun a => ⟨a.obj, k⟩) 0 none h <;> rfl)

theorem maxDepth_const {vs : List (View A)} {k : Nat} (hne : vs ≠ []) :
    maxDepth ((vs.map fun a => (⟨a.obj, k⟩ : View A)).map View.arg) = k := by
  obtain ⟨a, ha, e⟩ := maxDepth_mem (args := (vs.map fun a => (⟨a.obj, k⟩ : View A)).map View.arg)
    (by simpa using hne)
  obtain ⟨w, hw, rfl⟩ := List.mem_map.1 ha
  obtain ⟨u, hu, rfl⟩ := List.mem_map.1 hw
  exact e.symm

/-- `v.group_by(*args)` regroups the items of each innermost tuple: one group for each
different key, with the items of that key in order; items with a missing key are dropped. -/
theorem C22_group_by {keyEq lt : List (Obj A) → List (Obj A) → Bool} (he : KeyEquiv keyEq)
    (sort : Bool) (ho : sort = true → KeyOrder keyEq lt) (v : View A) (args : List (View A)) (k : Nat)
    (hd : ∀ a ∈ v :: args, a.depth = k + 1) (hw : ∀ a ∈ v :: args, a.Wf)
    (hc : Compatible (v :: args)) (h : Heap A) :
    ∃ r, groupBy (E := E) keyEq lt v args sort h = .ok (r, h) ∧ r.depth = k + 2 ∧ r.Wf ∧
      ShapeEq k r.obj v.obj ∧
      ∀ p xs (cols : List (List (Obj A))), p.length = k → v.obj.at? p = some (.tup xs) →
        (args.map fun a => a.obj.at? p) = cols.map (fun c => some (.tup c)) →
        ∃ gs : List (List (Obj A)), r.obj.at? p = some (.tup (gs.map .tup)) ∧
          IsGrouping keyEq lt sort (presentRows (keyedRows xs cols)) gs := by
  have hn : ∀ a ∈ v :: args, Nested (k + 1) a.obj := fun a ha => by
    have := hw a ha; unfold View.Wf at this; rw [hd a ha] at this; exact this
  rw [groupBy_unfold keyEq lt v args k hd, map_zero _ (by simp)]
  have hmd : maxDepth (((v :: args).map fun a => (⟨a.obj, k⟩ : View A)).map View.arg) = k :=
    maxDepth_const (by simp)
  have hlen : ∀ p xs (cols : List (List (Obj A))), p.length = k → v.obj.at? p = some (.tup xs) →
      (args.map fun a => a.obj.at? p) = cols.map (fun c => some (.tup c)) →
      ∀ c ∈ cols, c.length = xs.length := by
    intro p xs cols hp hx hcols c hcm
    have : some (.tup c) ∈ args.map fun a => a.obj.at? p := by
      rw [hcols]; exact List.mem_map.2 ⟨c, hcm, rfl⟩
    obtain ⟨a, ha, hac⟩ := List.mem_map.1 this
    exact hc a (List.mem_cons_of_mem _ ha) v (by simp) p c xs
      (by have := hd a (List.mem_cons_of_mem _ ha); omega) (by have := hd v (by simp); omega) hac hx
  have hitems : ∀ p, p.length = k →
      itemsAt (((v :: args).map fun a => (⟨a.obj, k⟩ : View A)).map View.arg) p =
        (v :: args).map fun a => a.obj.at? p := by
    intro p hp
    rw [itemsAt_views, List.map_map]
    apply List.map_congr_left
    intro a _
    exact itemAt_self (v := ⟨a.obj, k⟩) hp
  -- what one call computes
  have hcall : ∀ p (items : List (Obj A)), p.length = k →
      ((v :: args).map fun a => a.obj.at? p) = items.map some →
      ∃ xs cols gs, items = .tup xs :: cols.map .tup ∧ v.obj.at? p = some (.tup xs) ∧
        (args.map fun a => a.obj.at? p) = cols.map (fun c => some (.tup c)) ∧
        groupByPure (E := E) keyEq lt sort items = .ok (.tup (gs.map .tup)) ∧
        IsGrouping keyEq lt sort (presentRows (keyedRows xs cols)) gs := by
    intro p items hp hi
    obtain ⟨cols', rfl, hl, _⟩ := tups_of_nested hn hp hi
    cases cols' with
    | nil => simp at hl
    | cons xs cols =>
      simp only [List.map_cons, List.cons.injEq, List.map_map, Function.comp_def] at hi
      obtain ⟨gs, e1, e2⟩ := groupByImpl_spec (E := E) he sort ho xs cols
        (hlen p xs cols hp hi.1 hi.2)
      refine ⟨xs, cols, gs, rfl, hi.1, hi.2, ?_, e2⟩
      simp only [List.map_cons, groupByPure, Obj.items?, mapM_items, e1]
      rfl
  rcases mapStructures_pointwise (E := E) (groupByFn keyEq lt sort) false
    (((v :: args).map fun a => (⟨a.obj, k⟩ : View A)).map View.arg) (by simp)
    (nested_args (by
      intro w hw'
      obtain ⟨a, ha, rfl⟩ := List.mem_map.1 hw'
      exact nested_le (Nat.le_succ k) (hn a ha)))
    ((compatAt_iff _).2 (by
      intro w hw1 w' hw2
      obtain ⟨a, ha, rfl⟩ := List.mem_map.1 hw1
      obtain ⟨b, hb, rfl⟩ := List.mem_map.1 hw2
      exact agree_le (hc a ha b hb) (by have := hd a ha; omega) (by have := hd b hb; omega)))
    h (groupByPure keyEq lt sort) (fun p items _ _ => groupByFn_pure keyEq lt sort items h) with
    ⟨r, h1, h2, h3, h4, h5⟩ | ⟨e, h1, p, items, hp, hi, hee⟩
  · rw [hmd] at h2 h3 h4 h5
    simp only [mkView, hmd, Option.getD_none, h1]
    have hsh : ShapeEq k r v.obj := h3 (k, v.obj) (by simp [View.arg]) rfl
    have hpoint : ∀ p xs (cols : List (List (Obj A))), p.length = k → v.obj.at? p = some (.tup xs) →
        (args.map fun a => a.obj.at? p) = cols.map (fun c => some (.tup c)) →
        ∃ gs : List (List (Obj A)), r.at? p = some (.tup (gs.map .tup)) ∧
          IsGrouping keyEq lt sort (presentRows (keyedRows xs cols)) gs := by
      intro p xs cols hp hx hcols
      have hi : ((v :: args).map fun a => a.obj.at? p) =
          ((Obj.tup xs :: cols.map Obj.tup) : List (Obj A)).map some := by
        simp only [List.map_cons, List.map_map, hx, hcols, Function.comp_def]
      obtain ⟨x, hx1, hx2⟩ := h4 p _ hp (by rw [hitems p hp]; exact hi)
      obtain ⟨gs, e1, e2⟩ := groupByImpl_spec (E := E) he sort ho xs cols (hlen p xs cols hp hx hcols)
      have hnn : (Obj.tup xs :: cols.map Obj.tup).any Obj.isNone = false := by
        rw [List.any_eq_false]
        intro y hy
        rcases List.mem_cons.1 hy with rfl | hy
        · simp [Obj.isNone]
        · obtain ⟨c, _, rfl⟩ := List.mem_map.1 hy
          simp [Obj.isNone]
      simp only [orMissing, hnn, Bool.and_false, Bool.false_eq_true, if_false, groupByPure,
        Obj.items?, mapM_items, e1] at hx2
      injection hx2 with hx2
      exact ⟨gs, by rw [hx1, ← hx2], e2⟩
    refine ⟨⟨r, k + 2⟩, rfl, rfl, ?_, hsh, hpoint⟩
    unfold View.Wf
    apply explode_one.nested_of_leaves h2
    intro x hx
    obtain ⟨p, hp, hxp⟩ := (mem_leaves h2 x).1 hx
    obtain ⟨items, hi⟩ := h5 p hp ⟨x, hxp⟩
    rw [hitems p hp] at hi
    obtain ⟨xs, cols, gs, _, q1, q2, _⟩ := hcall p items hp hi
    obtain ⟨gs', e, _⟩ := hpoint p xs cols hp q1 q2
    rw [hxp] at e
    injection e with e
    subst e
    refine ⟨_, rfl, ?_⟩
    intro y hy
    obtain ⟨g, _, rfl⟩ := List.mem_map.1 hy
    exact ⟨g, rfl, fun _ _ => trivial⟩
  · exfalso
    rw [hmd] at hp
    rw [hitems p hp] at hi
    obtain ⟨xs, cols, gs, rfl, _, _, e, _⟩ := hcall p items hp hi
    have hnn : (Obj.tup xs :: cols.map Obj.tup).any Obj.isNone = false := by
      rw [List.any_eq_false]
      intro y hy
      rcases List.mem_cons.1 hy with rfl | hy
      · simp [Obj.isNone]
      · obtain ⟨c, _, rfl⟩ := List.mem_map.1 hy
        simp [Obj.isNone]
    simp only [orMissing, hnn, Bool.and_false, Bool.false_eq_true, if_false, e] at hee
    cases hee

/-- `group_by` raises on a scalar, on views of different depths, and on views whose shapes
differ. -/
theorem C22_group_by_checks_shapes (keyEq lt : List (Obj A) → List (Obj A) → Bool) (sort : Bool)
    (v : View A) (args : List (View A)) (h : Heap A) :
    (v.depth = 0 → groupBy (E := E) keyEq lt v args sort h = .error .valueError) ∧
    ((∃ a ∈ args, a.depth ≠ v.depth) →
      groupBy (E := E) keyEq lt v args sort h = .error .valueError) ∧
    (∀ k, (∀ a ∈ v :: args, a.depth = k + 1) → (∀ a ∈ v :: args, a.Wf) →
      ¬ Compatible (v :: args) → ∃ e, groupBy (E := E) keyEq lt v args sort h = .error e) := by
  refine ⟨?_, ?_, ?_⟩
  · intro h0; unfold groupBy; rw [if_pos h0]
  · rintro ⟨a, ha, hne⟩
    unfold groupBy
    by_cases h0 : v.depth = 0
    · rw [if_pos h0]
    · rw [if_neg h0, if_pos (by
        rw [List.any_eq_true]
        exact ⟨a, ha, by simpa using hne⟩)]
  · intro k hd hw hnc
    have hn : ∀ a ∈ v :: args, Nested (k + 1) a.obj := fun a ha => by
      have := hw a ha; unfold View.Wf at this; rw [hd a ha] at this; exact this
    rw [groupBy_unfold keyEq lt v args k hd]
    have hw' : ∀ w ∈ (v :: args).map fun a => (⟨a.obj, k⟩ : View A), w.Wf := by
      intro w hw'
      obtain ⟨a, ha, rfl⟩ := List.mem_map.1 hw'
      exact nested_le (Nat.le_succ k) (hn a ha)
    by_cases hc : Compatible ((v :: args).map fun a => (⟨a.obj, k⟩ : View A))
    · rw [map_zero _ (by simp)]
      have hmd : maxDepth (((v :: args).map fun a => (⟨a.obj, k⟩ : View A)).map View.arg) = k :=
        maxDepth_const (by simp)
      rcases mapStructures_pointwise (E := E) (groupByFn keyEq lt sort) false
        (((v :: args).map fun a => (⟨a.obj, k⟩ : View A)).map View.arg) (by simp)
        (nested_args hw') ((compatAt_iff _).2 hc)
        h (groupByPure keyEq lt sort) (fun p items _ _ => groupByFn_pure keyEq lt sort items h) with
        ⟨r, h1, h2, h3, h4, h5⟩ | ⟨e, h1, _⟩
      · exfalso
        rw [hmd] at h2 h3 h4 h5
        apply hnc
        -- all tuples have the length of the tuple of `v`
        have key : ∀ a ∈ v :: args, ∀ p xs cs, p.length = k → v.obj.at? p = some (.tup xs) →
            a.obj.at? p = some (.tup cs) → cs.length = xs.length := by
          intro a ha p xs cs hp hx hcs
          have hsh : ShapeEq k r v.obj := h3 (k, v.obj) (by simp [View.arg]) rfl
          obtain ⟨_, z, hz⟩ := (mem_positions h2 p).1 (by
            rw [shapeEq_positions hsh]
            exact (mem_positions (nested_le (Nat.le_succ k) (hn v (by simp))) p).2 ⟨hp, _, hx⟩)
          obtain ⟨items, hi⟩ := h5 p hp ⟨z, hz⟩
          obtain ⟨w, _, hee⟩ := h4 p items hp hi
          have hi' : ((v :: args).map fun a => a.obj.at? p) = items.map some := by
            rw [← hi, itemsAt_views, List.map_map]
            apply List.map_congr_left
            intro a _
            exact (itemAt_self (v := ⟨a.obj, k⟩) hp).symm
          obtain ⟨cols', rfl, hl, hcol⟩ := tups_of_nested hn hp hi'
          cases cols' with
          | nil => simp at hl
          | cons xs' cols =>
            have hxs : xs' = xs := by
              have := hcol 0 v xs' rfl rfl
              rw [hx] at this
              simp only [Option.some.injEq, Obj.tup.injEq] at this
              exact this.symm
            subst hxs
            have hnn : (Obj.tup xs' :: cols.map Obj.tup).any Obj.isNone = false := by
              rw [List.any_eq_false]
              intro y hy
              rcases List.mem_cons.1 hy with rfl | hy
              · simp [Obj.isNone]
              · obtain ⟨c, _, rfl⟩ := List.mem_map.1 hy
                simp [Obj.isNone]
            rcases Classical.em (∃ c ∈ cols, c.length ≠ xs'.length) with hbad | hgood
            · simp only [List.map_cons, orMissing, hnn, Bool.and_false, Bool.false_eq_true, if_false,
                groupByPure, Obj.items?, mapM_items, groupByImpl, zipRows_none xs' cols hbad] at hee
              cases hee
            · obtain ⟨j, hj⟩ := List.mem_iff_getElem?.1 ha
              have hjl := (List.getElem?_eq_some_iff.1 hj).1
              have hcj := List.getElem?_eq_getElem (l := xs' :: cols) (i := j) (by omega)
              have := hcol j a _ hj hcj
              rw [hcs] at this
              simp only [Option.some.injEq, Obj.tup.injEq] at this
              rcases List.mem_cons.1 (List.mem_of_getElem? hcj) with hh | hh
              · rw [this, hh]
              · rw [this]
                exact Classical.byContradiction fun hne => hgood ⟨_, hh, hne⟩
        intro a ha b hb p xs ys q1 q2 q3 q4
        have ha' := hd a ha
        have hb' := hd b hb
        by_cases hpk : p.length < k
        · exact hc _ (List.mem_map.2 ⟨a, ha, rfl⟩) _ (List.mem_map.2 ⟨b, hb, rfl⟩) p xs ys hpk hpk q3 q4
        · have hpk : p.length = k := by omega
          obtain ⟨z, hz⟩ : ∃ z, v.obj.at? p = some z := by
            obtain ⟨z, hz⟩ := itemAt_of_agree (v := ⟨v.obj, k⟩) (w := ⟨a.obj, k⟩)
              (nested_le (Nat.le_succ k) (hn v (by simp))) (nested_le (Nat.le_succ k) (hn a ha))
              (hc _ (List.mem_map.2 ⟨v, by simp, rfl⟩) _ (List.mem_map.2 ⟨a, ha, rfl⟩))
              (Nat.le_refl _) hpk q3
            exact ⟨z, by rw [itemAt_self (by exact hpk)] at hz; exact hz⟩
          obtain ⟨zs, rfl⟩ := tup_at (hn v (by simp)) hpk hz
          rw [key a ha p zs xs hpk hz q3, key b hb p zs ys hpk hz q4]
      · exact ⟨e, by simp only [mkView, Option.getD_none, h1]⟩
    · obtain ⟨e, hee⟩ := C19_map_raises_on_incompatible_shapes (E := E) (groupByFn keyEq lt sort)
        ((v :: args).map fun a => (⟨a.obj, k⟩ : View A)) hw' hc none h
      exact ⟨e, by rw [hee]⟩

/-! ### C23 -/

/-- What collapsing a list of items means: the first item that is not missing, if all items
that are not missing are equal to it. -/
def onlyValue (eq : Obj A → Obj A → Bool) (items : List (Obj A)) : Obj A :=
  match items.filter fun x => !x.isNone with
  | [] => .none
  | y :: ys => if ys.all (eq y) then y else .none

theorem collapseImpl_some (eq : Obj A → Obj A → Bool) (xs : List (Obj A)) (y : Obj A)
    (hy : y.isNone = false) : collapseImpl eq xs y =
      if (xs.filter fun x => !x.isNone).all (eq y) then y else .none := by
  induction xs with
  | nil => simp [collapseImpl]
  | cons x xs ih =>
    simp only [collapseImpl, hy, List.filter_cons]
    cases hx : x.isNone with
    | true => simpa using ih
    | false =>
      simp only [Bool.not_false, if_true, Bool.false_eq_true, if_false, List.all_cons]
      cases he : eq y x with
      | false => simp
      | true => simpa using ih

theorem collapseImpl_spec (eq : Obj A → Obj A → Bool) (xs : List (Obj A)) :
    collapseImpl eq xs .none = onlyValue eq xs := by
  unfold onlyValue
  induction xs with
  | nil => simp [collapseImpl]
  | cons x xs ih =>
    simp only [collapseImpl, List.filter_cons]
    cases hx : x.isNone with
    | true => simpa using ih
    | false =>
      simp only [Obj.isNone, Bool.not_false, if_true, Bool.false_eq_true, if_false]
      exact collapseImpl_some eq xs x hx

/-- `collapse(ndim)` replaces every object `ndim` dimensions above the items by the only
value that is not missing below it, by `None` if there are none or different ones. -/
theorem C23_collapse (iterAtom : A → Option (List (Obj A))) (eq : Obj A → Obj A → Bool) (v : View A)
    (hv : v.Wf) (ndim : Nat) (hnd : ndim ≤ v.depth) (h : Heap A) :
    ∃ r new, collapse (E := E) iterAtom eq v ndim h = .ok (r, h ++ new) ∧
      r.depth = v.depth - ndim ∧ r.Wf ∧ ShapeEq (v.depth - ndim) r.obj v.obj ∧
      ∀ p x, p.length = v.depth - ndim → v.obj.at? p = some x →
        r.obj.at? p = some (onlyValue eq (leaves ndim x)) := by
  unfold collapse
  rw [if_neg (by omega)]
  obtain ⟨w, new, f1, f2, f3, f4, f5, _⟩ := C20_flatten (E := E) iterAtom v hv
    ((v.depth : Int) - ndim) none h (v.depth - ndim) v.depth (by omega) (by omega)
    (fun _ => rfl) (by simp) (by simp)
  rw [f1]
  simp only
  have hwd : w.depth = v.depth - ndim + 1 := by omega
  generalize hk : v.depth - ndim = k at *
  have hsub : v.depth - k = ndim := by omega
  rw [hsub] at f5
  have hw1 : Nested (k + 1) w.obj := by rw [← hwd]; exact f3
  have hm : map_ (E := E) (collapseFn eq) [w] 1 none (h ++ new) =
      mkView k (mapStructures (collapseFn eq) true [(k, w.obj)]) (h ++ new) := by
    have hmx : maxDepth [w.arg] = k + 1 := by rw [maxDepth_one]; exact hwd
    unfold map_
    simp only [align]
    rw [if_neg (by simp), if_neg (by omega)]
    simp only [ne_eq, Int.reduceEq, not_false_eq_true, if_true, List.map_cons, List.map_nil, hmx]
    rw [if_neg (by simp), if_neg (by omega)]
    simp
  rw [hm]
  rcases mapStructures_pointwise (E := E) (collapseFn eq) true [(k, w.obj)] (by simp)
    (by simpa using nested_le (Nat.le_succ k) hw1) (compatAt_one 0 _) (h ++ new)
    (fun items => match items with
      | [.tup xs] => .ok (collapseImpl eq xs .none)
      | _ => .error .typeError)
    (by
      intro p items hp hi
      simp only [maxDepth_one] at hp
      have : ∃ x, items = [x] ∧ w.obj.at? p = some x := by
        simp only [itemsAt, List.map_cons, List.map_nil] at hi
        match items, hi with
        | [], hi => simp at hi
        | _ :: _ :: _, hi => simp at hi
        | [x], hi =>
          simp only [List.map_cons, List.map_nil, List.cons.injEq, and_true] at hi
          rw [List.take_of_length_le (by omega)] at hi
          exact ⟨x, rfl, hi⟩
      obtain ⟨x, rfl, hx⟩ := this
      obtain ⟨xs, rfl⟩ := tup_at hw1 hp hx
      rfl) with ⟨r, h1, h2, h3, h4, h5⟩ | ⟨e, h1, p, items, hp, hi, hee⟩
  · rw [maxDepth_one] at h2 h3 h4 h5
    have hsh : ShapeEq k r w.obj := h3 (k, w.obj) (by simp) rfl
    refine ⟨⟨r, k⟩, new, by simp only [mkView, h1], rfl, h2, shapeEq_trans hsh f4, ?_⟩
    intro p x hp hx
    have hwp := f5 p x hp hx
    obtain ⟨z, hz1, hz2⟩ := h4 p [.tup (leaves ndim x)] hp (by
      simp only [itemsAt, List.map_cons, List.map_nil]
      rw [List.take_of_length_le (by omega), hwp])
    simp only [orMissing, Bool.not_true, Bool.false_and, Bool.false_eq_true, if_false] at hz2
    injection hz2 with hz2
    rw [hz1, ← hz2, collapseImpl_spec]
  · exfalso
    rw [maxDepth_one] at hp
    have : ∃ x, items = [x] ∧ w.obj.at? p = some x := by
      simp only [itemsAt, List.map_cons, List.map_nil] at hi
      match items, hi with
      | [], hi => simp at hi
      | _ :: _ :: _, hi => simp at hi
      | [x], hi =>
        simp only [List.map_cons, List.map_nil, List.cons.injEq, and_true] at hi
        rw [List.take_of_length_le (by omega)] at hi
        exact ⟨x, rfl, hi⟩
    obtain ⟨x, rfl, hx⟩ := this
    obtain ⟨xs, rfl⟩ := tup_at hw1 hp hx
    simp [orMissing] at hee

/-- `collapse` of a negative number of dimensions, or more than the view has, raises. -/
theorem C23_collapse_checks_ndim (iterAtom : A → Option (List (Obj A))) (eq : Obj A → Obj A → Bool)
    (v : View A) (ndim : Int) (hb : ndim < 0 ∨ ndim > v.depth) (h : Heap A) :
    collapse (E := E) iterAtom eq v ndim h = .error .valueError := by
  unfold collapse
  rw [if_pos hb]

/-- The result does not depend on the order of the items, if equality is an equivalence and
equal items are the same. -/
theorem C23_collapse_ignores_order (eq : Obj A → Obj A → Bool)
    (heq : ∀ a b, eq a b = true ↔ a = b) (xs ys : List (Obj A)) (hp : xs.Perm ys) :
    onlyValue eq xs = onlyValue eq ys := by
  have hv : ∀ zs : List (Obj A), ∀ y, y.isNone = false →
      (onlyValue eq zs = y ↔ (∃ z ∈ zs, z.isNone = false) ∧ ∀ z ∈ zs, z.isNone = false → z = y) := by
    intro zs y hy
    unfold onlyValue
    cases hf : zs.filter fun x => !x.isNone with
    | nil =>
      have := List.filter_eq_nil_iff.1 hf
      simp only
      constructor
      · rintro rfl; simp [Obj.isNone] at hy
      · rintro ⟨⟨z, hz, hzn⟩, _⟩
        exact absurd (by simpa using hzn) (this z hz)
    | cons z rest =>
      have hmem : ∀ a, a ∈ z :: rest ↔ a ∈ zs ∧ a.isNone = false := fun a => by
        rw [← hf, List.mem_filter]; simp
      simp only
      constructor
      · intro he
        split at he
        · rename_i hall
          subst he
          refine ⟨⟨z, ((hmem z).1 (by simp)).1, hy⟩, ?_⟩
          intro a ha han
          rcases List.mem_cons.1 ((hmem a).2 ⟨ha, han⟩) with rfl | har
          · rfl
          · exact ((heq _ _).1 (List.all_eq_true.1 hall a har)).symm
        · rw [← he] at hy; simp [Obj.isNone] at hy
      · rintro ⟨_, hall⟩
        have hz := (hmem z).1 (by simp)
        have hzy := hall z hz.1 hz.2
        subst hzy
        rw [if_pos (by
          rw [List.all_eq_true]
          intro a ha
          have := (hmem a).1 (by simp [ha])
          exact (heq _ _).2 (hall a this.1 this.2).symm)]
  have hiff : ∀ y : Obj A, y.isNone = false → (onlyValue eq xs = y ↔ onlyValue eq ys = y) := by
    intro y hy
    rw [hv xs y hy, hv ys y hy]
    constructor
    · rintro ⟨⟨z, hz, hzn⟩, hall⟩
      exact ⟨⟨z, hp.mem_iff.1 hz, hzn⟩, fun w hw => hall w (hp.mem_iff.2 hw)⟩
    · rintro ⟨⟨z, hz, hzn⟩, hall⟩
      exact ⟨⟨z, hp.mem_iff.2 hz, hzn⟩, fun w hw => hall w (hp.mem_iff.1 hw)⟩
  have hnone : ∀ o : Obj A, o.isNone = true → o = .none := by
    intro o ho; cases o <;> simp [Obj.isNone] at ho ⊢
  cases h1 : (onlyValue eq xs).isNone with
  | false => exact ((hiff _ h1).1 rfl).symm
  | true =>
    cases h2 : (onlyValue eq ys).isNone with
    | false => exact (hiff _ h2).2 rfl
    | true => rw [hnone _ h1, hnone _ h2]

/-! ### Examples -/

def atomEq : Obj Nat → Obj Nat → Bool
  | .atom a, .atom b => a == b
  | .none, .none => true
  | _, _ => false

def listEq : List (Obj Nat) → List (Obj Nat) → Bool
  | [], [] => true
  | a :: as, b :: bs => atomEq a b && listEq as bs
  | _, _ => false

/-- `[10, 20, 30, 40].group_by([2, None, 1, 2])` -/
example : (groupBy (E := Unit) listEq (fun _ _ => false)
    ⟨.tup [.atom 10, .atom 20, .atom 30, .atom 40], 1⟩
    [⟨.tup [.atom 2, .none, .atom 1, .atom 2], 1⟩] false []).toOption.map (·.1) =
    some ⟨.tup [.tup [.atom 10, .atom 40], .tup [.atom 30]], 2⟩ := rfl

/-- The equivalence that compares keys as lists of objects. -/
example [DecidableEq (Obj A)] : KeyEquiv (fun a b : List (Obj A) => decide (a = b)) :=
  ⟨by simp, fun a b h => by simpa using (of_decide_eq_true h).symm,
   fun a b c h1 h2 => by simpa using (of_decide_eq_true h1).trans (of_decide_eq_true h2)⟩

example : (collapse (E := Unit) (fun _ => none) atomEq
    ⟨.tup [.tup [.atom 1, .none, .atom 1], .tup [], .tup [.atom 1, .atom 2]], 2⟩ 1
    []).toOption.map (·.1) = some ⟨.tup [.atom 1, .none, .none], 1⟩ := rfl

end Verif.View
