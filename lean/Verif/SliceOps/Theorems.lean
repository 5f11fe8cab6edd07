import Verif.SliceOps.Select
import Verif.SliceOps.Unselect
import Verif.SliceOps.Reverse
import Verif.SliceOps.Unique
import Verif.SliceOps.Choose

/-!
What the operators on slices do, as nested lists (C76-C81).
-/

namespace Verif.SliceOps

open Verif.Uuid (Item)

variable {α β γ : Type}

/-! ### slices as nested lists -/

/-- **C78 (slices are nested lists).** Two slices of the same rank that are the same nested list
are the same. -/
theorem C78_view_determines {s t : Slice α} (hs : Wf s) (ht : Wf t) (hr : s.rank = t.rank)
    (h : view s = view t) : s = t := by
  have h1 := nest_view hs
  rw [h, ← nest_view ht] at h1
  obtain ⟨he, hi⟩ := nest_inj (n := 1) hr (by simpa [Wf] using hs) (by simpa [Wf] using ht) h1
  have hi : s.items = t.items := by
    have h' := congrArg (List.map Tree.item) hi
    simp only [List.map_map] at h'
    have e : (Tree.item ∘ Tree.leaf : Option α → Option α) = id := rfl
    rw [e] at h'
    simpa using h'
  cases s; cases t
  simp_all

/-! ### broadcasting and aligning -/

/-- **C78 (broadcasting).** A slice is broadcast to a shape that begins with its own: each item takes the place
of all the items in its place. Other shapes are an error. -/
theorem C78_broadcast {s : Slice α} {x : Slice β} (hs : Wf s) (hx : Wf x) :
    (s.edges <+: x.edges → ∃ t, broadcastTo s x.edges = .ok t ∧ Wf t ∧ t.edges = x.edges ∧
      view t = zipAt s.rank spread (view s) (view x)) ∧
    (¬ s.edges <+: x.edges → broadcastTo s x.edges = .error .broadcast) := by
  refine ⟨fun h => ?_, broadcastTo_error⟩
  obtain ⟨t, h1, h2, h3, h4⟩ := broadcastTo_spec hs hx h
  exact ⟨t, h1, h3, h2, h4⟩

/-- **C78 (align).** `align` of slices whose shapes begin with each other returns them all in the shape of one of
them, the deepest. Otherwise it is an error. -/
theorem C78_align (l : List (Slice α)) (hl : ∀ s ∈ l, Wf s) :
    ((∀ s ∈ l, ∀ t ∈ l, Compatible s.edges t.edges) → l ≠ [] →
      ∃ x ∈ l, (∀ s ∈ l, s.rank ≤ x.rank) ∧ ∃ ts, alignAll l = .ok ts ∧ (∀ t ∈ ts, Wf t ∧ t.edges = x.edges) ∧
        ts.map view = l.map (fun s => zipAt s.rank spread (view s) (view x))) ∧
    (¬ (∀ s ∈ l, ∀ t ∈ l, Compatible s.edges t.edges) → alignAll l = .error .broadcast) ∧
    (l = [] → alignAll l = .ok []) := by
  cases l with
  | nil => exact ⟨fun _ h => absurd rfl h, fun h => absurd (by simp) h, fun _ => rfl⟩
  | cons s l =>
    obtain ⟨h1, h2, h3⟩ := largest_spec s.edges (l.map (·.edges))
    have hx : ∃ x ∈ s :: l, x.edges = largest s.edges (l.map (·.edges)) := by
      rcases h1 with h1 | h1
      · exact ⟨s, by simp, h1.symm⟩
      · obtain ⟨x, hx, he⟩ := List.mem_map.mp h1
        exact ⟨x, by simp [hx], he⟩
    obtain ⟨x, hx, he⟩ := hx
    have hle : ∀ t ∈ s :: l, t.edges.length ≤ x.edges.length := by
      intro t ht
      rw [he]
      rcases List.mem_cons.mp ht with rfl | ht
      · exact h2
      · exact h3 _ (List.mem_map_of_mem ht)
    have hall : (∀ t ∈ s :: l, t.edges <+: x.edges) ↔
        ∀ s' ∈ s :: l, ∀ t ∈ s :: l, Compatible s'.edges t.edges := by
      constructor
      · intro h a ha b hb
        rcases Nat.le_total a.edges.length b.edges.length with hl | hl
        · exact .inl (List.prefix_of_prefix_length_le (h a ha) (h b hb) hl)
        · exact .inr (List.prefix_of_prefix_length_le (h b hb) (h a ha) hl)
      · intro h t ht
        rcases h t ht x hx with h' | h'
        · exact h'
        · rw [h'.eq_of_length (Nat.le_antisymm h'.length_le (hle t ht))]
          exact List.prefix_refl _
    refine ⟨fun h _ => ⟨x, hx, hle, ?_⟩, fun h => ?_, fun h => by simp at h⟩
    · obtain ⟨ts, t1, -, t3, t4⟩ := broadcastAll_spec (hl x hx) (s :: l) hl (hall.mpr h)
      refine ⟨ts, ?_, fun t ht => (t3 t ht).symm, t4⟩
      unfold alignAll
      simp only
      rw [← he]
      exact t1
    · unfold alignAll
      simp only
      rw [← he]
      apply broadcastAll_error
      have := mt hall.mp h
      simp only [Classical.not_forall] at this
      obtain ⟨t, ht, hn⟩ := this
      exact ⟨t, ht, hn⟩

/-- A slice of numbers with groups of groups. -/
def exNested : Slice Nat := ⟨[[2], [2, 1], [1, 2, 2]], [some 1, some 2, none, some 4, some 5]⟩

/-- A mask for its groups of groups. -/
def exMask : Slice Item := ⟨[[2], [2, 1]], [none, some .unit, some .unit]⟩

/-- A result, or an empty slice without items. -/
def exSlice {α : Type} : Except Err (Slice α) → Slice α
  | .ok s => s
  | .error _ => ⟨[], []⟩

/-- The error. -/
def exErr {α : Type} : Except Err α → Option Err
  | .ok _ => none
  | .error e => some e

/-- Whether the items fit the shape. -/
def fitsDec : (n : Nat) → (es : List Edge) → (m : Nat) → Decidable (Fits n es m)
  | n, [], m => inferInstanceAs (Decidable (n = m))
  | n, e :: es, m => @instDecidableAnd _ _ (inferInstanceAs (Decidable (e.length = n))) (fitsDec e.sum es m)

instance (s : Slice α) : Decidable (Wf s) := fitsDec 1 s.edges s.items.length

/-- Example: items for the groups take the place of the items of the groups. -/
example : Wf exNested ∧ Wf exMask ∧
    exSlice (broadcastTo (⟨[[2]], [some 7, some 8]⟩ : Slice Nat) exNested.edges) =
      ⟨exNested.edges, [some 7, some 7, some 7, some 8, some 8]⟩ ∧
    exErr (broadcastTo (⟨[[3]], [some 7, some 8, none]⟩ : Slice Nat) exNested.edges) = some .broadcast := by
  decide +kernel

/-- Example: an item, a list and a list of lists. -/
example : (match alignAll [⟨[], [some 9]⟩, (⟨[[2], [2, 1]], [some 1, none, some 3]⟩ : Slice Nat),
      ⟨[[2]], [some 7, some 8]⟩] with
    | .ok ts => ts
    | .error _ => []) =
    [⟨[[2], [2, 1]], [some 9, some 9, some 9]⟩, ⟨[[2], [2, 1]], [some 1, none, some 3]⟩,
      ⟨[[2], [2, 1]], [some 7, some 7, some 8]⟩] := by decide +kernel

/-! ### select -/

/-- A schema a filter may have: MASK or OBJECT. -/
def FilterSchema (schema : Item) : Prop := schema = .dtype 5 ∨ schema = .dtype 11

/-- **C76 (select).** `select` keeps of each group those parts where the filter is present, in their order, and
all of the shape above and below. -/
theorem C76_select {ds : Slice α} {f : Slice Item} {schema : Item} (hd : Wf ds) (hf : Wf f)
    (hs : FilterSchema schema) (h1 : 1 ≤ f.rank) (hp : f.edges <+: ds.edges) (hm : AllMask f.items) :
    ∃ s, select ds f schema false = .ok s ∧ Wf s ∧ s.rank = ds.rank ∧
      view s = zipAt (f.rank - 1) selectNode (view ds) (view f) := by
  obtain ⟨s, h⟩ := selectOp_spec hd hf h1 hp hm
  refine ⟨s, ?_, h.2⟩
  have hle : f.rank ≤ ds.rank := hp.length_le
  unfold select
  rw [if_neg (by rcases hs with rfl | rfl <;> simp)]
  simp only [Bool.false_eq_true, if_false]
  have hr : f.edges.length = f.rank := rfl
  rw [hr, if_neg (by omega), if_neg (by omega), broadcastTo_self]
  exact h.1

/-- **C76 (select with `expand_filter`).** With `expand_filter`, it is the items that are kept or not, by the
item of the filter in their place. -/
theorem C76_select_expand {ds : Slice α} {f : Slice Item} {schema : Item} (hd : Wf ds) (hf : Wf f)
    (hs : FilterSchema schema) (h1 : 1 ≤ ds.rank) (hp : f.edges <+: ds.edges) (hm : AllMask f.items) :
    ∃ s, select ds f schema true = .ok s ∧ Wf s ∧ s.rank = ds.rank ∧
      view s = zipAt (ds.rank - 1) selectNode (view ds) (zipAt f.rank spread (view f) (view ds)) := by
  obtain ⟨t, t1, t2, t3, t4⟩ := broadcastTo_spec hf hd hp
  have htm : AllMask t.items := fun x hx => hm x (broadcastTo_mem t1 _ hx)
  have hr : t.rank = ds.rank := by simp [Slice.rank, t2]
  obtain ⟨s, h⟩ := selectOp_spec hd t3 (by omega) (by rw [t2]; exact List.prefix_refl _) htm
  rw [hr, t4] at h
  refine ⟨s, ?_, h.2⟩
  unfold select
  rw [if_neg (by rcases hs with rfl | rfl <;> simp)]
  simp only [if_true]
  have hr : ds.edges.length = ds.rank := rfl
  rw [hr, if_neg (by omega), if_neg (by omega), t1]
  exact h.1

/-- **C76 (errors).** A filter of another schema, of a higher rank, a filter that is an item, a filter of another
shape, and a filter with items that are not masks are errors. -/
theorem C76_errors (ds : Slice α) (f : Slice Item) (schema : Item) :
    (¬ FilterSchema schema → ∀ b, select ds f schema b = .error .filterSchema) ∧
    (FilterSchema schema →
      (ds.rank < f.rank → select ds f schema false = .error .higherRank) ∧
      (f.rank = 0 → select ds f schema false = .error .rankZero) ∧
      (ds.rank = 0 → select ds f schema true = .error .rankZero) ∧
      (f.rank ≤ ds.rank → 1 ≤ f.rank → ¬ f.edges <+: ds.edges → ∀ b, select ds f schema b = .error .broadcast) ∧
      (1 ≤ f.rank → f.edges <+: ds.edges → ¬ AllMask f.items →
        select ds f schema false = .error .notMask)) := by
  constructor
  · intro h b
    unfold select
    rw [if_pos ⟨fun h' => h (.inr h'), fun h' => h (.inl h')⟩]
  · intro hs
    have hs' : ¬ (schema ≠ .dtype 11 ∧ schema ≠ .dtype 5) := by rcases hs with rfl | rfl <;> simp
    have hr : f.edges.length = f.rank := rfl
    have hd : ds.edges.length = ds.rank := rfl
    refine ⟨?_, ?_, ?_, ?_, ?_⟩
    · intro h
      unfold select
      rw [if_neg hs']
      simp only [Bool.false_eq_true, if_false]
      rw [hr, if_pos h]
    · intro h
      unfold select
      rw [if_neg hs']
      simp only [Bool.false_eq_true, if_false]
      rw [hr, if_neg (by omega), if_pos h]
    · intro h
      unfold select
      rw [if_neg hs']
      simp only [if_true]
      rw [hd, if_neg (by omega), if_pos h]
    · intro hle h1 hp b
      unfold select
      rw [if_neg hs']
      cases b with
      | true =>
        simp only [if_true]
        rw [hd, if_neg (by omega), if_neg (by omega), broadcastTo_error hp]
      | false =>
        simp only [Bool.false_eq_true, if_false]
        rw [hr, if_neg (by omega), if_neg (by omega), broadcastTo_self]
        unfold selectOp
        simp only
        rw [if_neg (by omega), if_neg (by omega)]
        have : isBroadcastable f.edges ds.edges = false := by
          cases hb : isBroadcastable f.edges ds.edges
          · rfl
          · exact absurd ((isBroadcastable_iff _ _).mp hb) hp
        rw [this]
        rfl
    · intro h1 hp hm
      have hle : f.rank ≤ ds.rank := hp.length_le
      unfold select
      rw [if_neg hs']
      simp only [Bool.false_eq_true, if_false]
      rw [hr, if_neg (by omega), if_neg (by omega), broadcastTo_self]
      unfold selectOp
      simp only
      rw [if_neg (by omega), if_neg (by omega), (isBroadcastable_iff _ _).mpr hp, maskOf_ok.2 hm]
      rfl

/-- Example: a group is left out with all that is in it. -/
example : FilterSchema (.dtype 5) ∧
    exSlice (select exNested exMask (.dtype 5) false) =
      ⟨[[2], [1, 1], [2, 2]], [some 2, none, some 4, some 5]⟩ ∧
    exSlice (select exNested exMask (.dtype 5) true) =
      ⟨[[2], [2, 1], [0, 2, 2]], [some 2, none, some 4, some 5]⟩ := by
  refine ⟨.inl rfl, ?_⟩
  decide +kernel

/-- Example: the errors. -/
example : exErr (select exNested exMask (.dtype 1) false) = some .filterSchema ∧
    exErr (select (⟨[[2]], [some 1, none]⟩ : Slice Nat) exMask (.dtype 5) false) = some .higherRank ∧
    exErr (select exNested ⟨[], [some .unit]⟩ (.dtype 5) false) = some .rankZero ∧
    exErr (select exNested ⟨[[2], [1, 1]], [some .unit, none]⟩ (.dtype 5) false) = some .broadcast ∧
    exErr (select exNested ⟨[[2]], [some (.dtype 1), none]⟩ (.dtype 11) false) = some .notMask := by
  decide +kernel

/-! ### inverse_select -/

/-- What `inverse_select` requires of the shapes: they differ in the last dimension only, where
the groups have as many items as the filter has present ones. -/
def Unselects (ds : Slice α) (f : Slice Item) : Prop :=
  ∃ U e, f.edges = U ++ [e] ∧ ds.edges = U ++ [(parts e f.items).map (·.countP Option.isSome)]

/-- **C77 (inverse_select).** `inverse_select` puts the items of each group in the places where the filter is
present, in their order, and leaves the other places missing. -/
theorem C77_inverse_select {ds : Slice α} {f : Slice Item} {schema : Item} (hd : Wf ds) (hf : Wf f)
    (hs : FilterSchema schema) (hu : Unselects ds f) (hm : AllMask f.items) :
    ∃ s, inverseSelect ds f schema = .ok s ∧ Wf s ∧ s.edges = f.edges ∧
      view s = zipAt (f.rank - 1) unselectNode (view ds) (view f) := by
  obtain ⟨U, e, h1, h2⟩ := hu
  obtain ⟨s, s1, s2, s3, -, -, s4⟩ := inverseSelect_spec hd hf hs.symm h1 h2 hm
  exact ⟨s, s1, s2, s3, s4⟩

/-- **C77 (errors).** -/
theorem C77_errors {ds : Slice α} {f : Slice Item} {schema : Item} :
    (ds.rank = 0 → inverseSelect ds f schema = .error .item) ∧
    (ds.rank ≠ 0 →
      (¬ FilterSchema schema → inverseSelect ds f schema = .error .filterSchema) ∧
      (FilterSchema schema →
        (ds.rank ≠ f.rank → inverseSelect ds f schema = .error .rank) ∧
        (ds.rank = f.rank →
          (¬ AllMask f.items → inverseSelect ds f schema = .error .notMask) ∧
          (AllMask f.items → ¬ Unselects ds f → inverseSelect ds f schema = .error .shape)))) := by
  constructor
  · intro h; unfold inverseSelect; rw [if_pos h]
  · intro h0
    constructor
    · intro h
      unfold inverseSelect
      rw [if_neg h0, if_pos ⟨fun h' => h (.inr h'), fun h' => h (.inl h')⟩]
    · intro hs
      have hs' : ¬ (schema ≠ .dtype 11 ∧ schema ≠ .dtype 5) := by rcases hs with rfl | rfl <;> simp
      constructor
      · intro hr
        unfold inverseSelect
        rw [if_neg h0, if_neg hs', if_pos hr]
      · intro hr
        constructor
        · intro hm
          unfold inverseSelect
          rw [if_neg h0, if_neg hs', if_neg (by omega), maskOf_ok.2 hm]
        · intro hm hu
          unfold inverseSelect
          rw [if_neg h0, if_neg hs', if_neg (by omega), maskOf_ok.1 hm]
          simp only
          by_cases hk : (!shapeOk 1 (replaceLast f.edges (countPresent (f.edges.getLast?.getD [])
            (f.items.map Option.isSome)))) = true
          · rw [if_pos hk]
          · rw [if_neg hk, if_pos]
            intro he
            apply hu
            have hne : f.edges ≠ [] := by
              intro h
              apply h0
              rw [hr]
              simp [Slice.rank, h]
            refine ⟨f.edges.dropLast, f.edges.getLast hne, (List.dropLast_concat_getLast hne).symm, ?_⟩
            rw [← he, replaceLast, ← counts_eq, List.getLast?_eq_some_getLast hne]
            rfl

/-- **C77 (round trips).** `select` with the same filter undoes `inverse_select`; `inverse_select` after
`select` is the slice with the items missing where the filter is. -/
theorem C77_select_inverse {ds : Slice α} {f : Slice Item} {schema : Item} (hd : Wf ds) (hf : Wf f)
    (hs : FilterSchema schema) (hu : Unselects ds f) (hm : AllMask f.items) :
    ∃ s, inverseSelect ds f schema = .ok s ∧ select s f schema false = .ok ds := by
  obtain ⟨U, e, h1, h2⟩ := hu
  obtain ⟨s, s1, s2, s3, s4, s5, -⟩ := inverseSelect_spec hd hf hs.symm h1 h2 hm
  have hne : f.edges ≠ [] := by rw [h1]; simp
  have hr1 : 1 ≤ f.rank := List.length_pos_iff.mpr hne
  refine ⟨s, s1, ?_⟩
  obtain ⟨t, t1, t2, t3, -⟩ := C76_select (schema := schema) s2 hf hs hr1 (by rw [s3]; exact List.prefix_refl _) hm
  rw [t1]
  congr 1
  have hr : f.edges.length = f.rank := rfl
  have hsr : s.rank = f.rank := by simp [Slice.rank, s3]
  unfold select at t1
  rw [if_neg (by rcases hs with rfl | rfl <;> simp)] at t1
  simp only [Bool.false_eq_true, if_false] at t1
  rw [hr, hsr, if_neg (by omega), if_neg (by omega), broadcastTo_self] at t1
  unfold selectOp at t1
  simp only at t1
  rw [if_neg (by omega), if_neg (by omega), s3, (isBroadcastable_iff _ _).mpr (List.prefix_refl _),
    maskOf_ok.1 hm] at t1
  have hdrop : f.edges.drop (f.rank - 1) = [e] := by simp [Slice.rank, h1]
  have htake : f.edges.take (f.rank - 1) = U := by simp [Slice.rank, h1]
  simp only [Bool.not_true, Bool.false_eq_true, if_false, hdrop, htake, selectEdges] at t1
  rw [s4, keep_fill _ _ s5, counts_eq, ← h2] at t1
  by_cases hk : (!shapeOk 1 ds.edges) = true
  · rw [if_pos hk] at t1; simp at t1
  · rw [if_neg hk] at t1
    cases t1
    rfl

/-- An item of a mask: the item if the filter is present. -/
def masked (x : Option α) (m : Option Item) : Option α := if m.isSome then x else none

theorem C77_inverse_of_select {ds : Slice α} {f : Slice Item} {schema : Item} (hd : Wf ds) (hf : Wf f)
    (hs : FilterSchema schema) (h1 : 1 ≤ f.rank) (he : f.edges = ds.edges) (hm : AllMask f.items) :
    ∃ s, select ds f schema false = .ok s ∧
      inverseSelect s f schema = .ok ⟨ds.edges, List.zipWith masked ds.items f.items⟩ := by
  obtain ⟨s, t1, t2, t3, -⟩ := C76_select (schema := schema) hd hf hs h1 (by rw [he]; exact List.prefix_refl _) hm
  refine ⟨s, t1, ?_⟩
  have hne : f.edges ≠ [] := by intro h; simp [Slice.rank, h] at h1
  obtain ⟨U, e, hUe⟩ : ∃ U e, f.edges = U ++ [e] :=
    ⟨f.edges.dropLast, f.edges.getLast hne, (List.dropLast_concat_getLast hne).symm⟩
  have hr : f.edges.length = f.rank := rfl
  have hsr : ds.rank = f.rank := by simp [Slice.rank, he]
  unfold select at t1
  rw [if_neg (by rcases hs with rfl | rfl <;> simp)] at t1
  simp only [Bool.false_eq_true, if_false] at t1
  rw [hr, hsr, if_neg (by omega), if_neg (by omega), broadcastTo_self] at t1
  unfold selectOp at t1
  simp only at t1
  rw [if_neg (by omega), if_neg (by omega), ← he, (isBroadcastable_iff _ _).mpr (List.prefix_refl _),
    maskOf_ok.1 hm] at t1
  have hdrop : f.edges.drop (f.rank - 1) = [e] := by simp [Slice.rank, hUe]
  have htake : f.edges.take (f.rank - 1) = U := by simp [Slice.rank, hUe]
  simp only [Bool.not_true, Bool.false_eq_true, if_false, hdrop, htake, selectEdges] at t1
  rw [counts_eq] at t1
  by_cases hk : (!shapeOk 1 (U ++ [(parts e f.items).map (·.countP Option.isSome)])) = true
  · rw [if_pos hk] at t1; simp at t1
  · rw [if_neg hk] at t1
    cases t1
    obtain ⟨r, r1, r2, r3, r4, -, -⟩ := inverseSelect_spec (schema := schema) t2 hf hs.symm hUe rfl hm
    rw [r1]
    have hl : ds.items.length = f.items.length := wf_items_eq hd hf he.symm
    obtain ⟨re, ri⟩ := r
    simp only at r3 r4
    rw [r3, r4, fill_keep _ _ (by simp [hl]), he, List.zipWith_map_left, List.zipWith_comm]
    congr 2

/-- Example: the places where the filter is missing are missing. -/
example : FilterSchema (.dtype 11) ∧ Unselects (⟨[[2], [1, 1]], [some 8, some 9]⟩ : Slice Nat) exMask ∧
    exSlice (inverseSelect (⟨[[2], [1, 1]], [some 8, some 9]⟩ : Slice Nat) exMask (.dtype 11)) =
      ⟨[[2], [2, 1]], [none, some 8, some 9]⟩ ∧
    exErr (inverseSelect (⟨[[2], [2, 0]], [some 8, some 9]⟩ : Slice Nat) exMask (.dtype 11)) = some .shape ∧
    exErr (inverseSelect (⟨[], [some 8]⟩ : Slice Nat) exMask (.dtype 11)) = some .item ∧
    exErr (inverseSelect (⟨[[2]], [some 8, none]⟩ : Slice Nat) exMask (.dtype 11)) = some .rank := by
  refine ⟨.inr rfl, ⟨[[2]], [2, 1], by decide, by decide⟩, ?_⟩
  decide +kernel

/-! ### reverse -/

/-- **C79.** `reverse` reverses the groups of the last dimension. -/
theorem C79_reverse {s : Slice α} (hs : Wf s) :
    Wf (reverse s) ∧ (reverse s).edges = s.edges ∧
      view (reverse s) = mapAt (s.rank - 1) reverseNode (view s) := reverse_spec hs

/-- **C79 (involution).** -/
theorem C79_reverse_reverse {s : Slice α} (hs : Wf s) : reverse (reverse s) = s := by
  obtain ⟨h1, h2, h3⟩ := reverse_spec hs
  obtain ⟨h4, h5, h6⟩ := reverse_spec h1
  have hr : (reverse s).rank = s.rank := by simp [Slice.rank, h2]
  apply C78_view_determines h4 hs (by simp [Slice.rank, h5, h2])
  rw [h6, h3, hr]
  cases hl : s.edges.getLast? with
  | none =>
    have he : s.edges = [] := List.getLast?_eq_none_iff.mp hl
    have hv := nest_view hs
    rw [he] at hv
    have h1 : s.items.map Tree.leaf = [view s] := hv
    obtain ⟨x, hx⟩ : ∃ x, view s = .leaf x := by
      cases hi : s.items with
      | nil => rw [hi] at h1; simp at h1
      | cons x l =>
        rw [hi] at h1
        simp only [List.map_cons, List.cons.injEq] at h1
        exact ⟨x, h1.1.symm⟩
    simp [hx, Slice.rank, he, mapAt, reverseNode]
  | some e =>
    obtain ⟨U, hU⟩ := List.getLast?_eq_some_iff.mp hl
    have hrU : s.rank - 1 = U.length := by simp [Slice.rank, hU]
    have hv := nest_view hs
    rw [hU, nest_append] at hv
    have h8 := congrArg (List.map (mapAt U.length reverseNode)) (congrArg (List.map (mapAt U.length reverseNode)) hv)
    rw [nest_map, nest_map] at h8
    rw [hrU]
    have h9 : (List.map reverseNode (List.map reverseNode (nest [e] (s.items.map Tree.leaf)))) =
        nest [e] (s.items.map Tree.leaf) := by
      simp only [nest, List.map_map]
      apply List.map_congr_left
      intro r _
      simp [reverseNode]
    rw [h9, hv] at h8
    simpa using h8.symm

/-- Example: missing items are moved, too. -/
example : reverse exNested = ⟨exNested.edges, [some 1, none, some 2, some 5, some 4]⟩ := by
  decide +kernel

/-! ### unique -/

section
variable {eq : α → α → Bool} {isNan : α → Bool} {lt : α → α → Bool}

/-- **C80 (unique).** `unique` leaves of each group the present items that are not the same as an earlier
one. Values that are not a number count as the same. -/
theorem C80_unique (he : Equality eq isNan) (sortable : Bool) {s : Slice α} (hs : Wf s) (hr : 1 ≤ s.rank) :
    ∃ t, unique eq isNan lt sortable false s = .ok t ∧ Wf t ∧ t.rank = s.rank ∧
      view t = mapAt (s.rank - 1) (itemsNode fun row =>
        (distinct (same eq isNan) row).map fun x => .leaf (some x)) (view s) := by
  simpa [uniqueRow] using unique_spec (lt := lt) he sortable false hs hr (by simp)

/-- A list of items in order: increasing, and then at most one that is not a number. -/
def InOrder (isNan : α → Bool) (lt : α → α → Bool) (l : List α) : Prop :=
  ∃ a b, l = a ++ b ∧ a.Pairwise (fun x y => lt x y = true) ∧ (∀ x ∈ a, isNan x = false) ∧
    (∀ x ∈ b, isNan x = true) ∧ b.length ≤ 1

/-- **C80 (sorted).** With `sort`, these are in increasing order, and what is not a number is last. -/
theorem C80_unique_sorted (he : Equality eq isNan) (ho : Ordering eq isNan lt) {s : Slice α} (hs : Wf s)
    (hr : 1 ≤ s.rank) :
    ∃ (t : Slice α) (f : List (Option α) → List α), unique eq isNan lt true true s = .ok t ∧ Wf t ∧
      t.rank = s.rank ∧
      (∀ row, (f row).Perm (distinct (same eq isNan) row) ∧ InOrder isNan lt (f row)) ∧
      view t = mapAt (s.rank - 1) (itemsNode fun row => (f row).map fun x => .leaf (some x)) (view s) := by
  obtain ⟨t, h1, h2, h3, h4⟩ := unique_spec (lt := lt) he true true hs hr (fun _ => rfl)
  refine ⟨t, uniqueRow eq isNan lt true, h1, h2, h3, fun row => ⟨?_, ?_⟩, h4⟩
  · unfold uniqueRow
    simp only [if_true]
    refine ((sortValues_perm _).append_right _).trans ?_
    refine (List.perm_append_comm).trans ?_
    exact List.filter_append_perm _ _
  · refine ⟨_, _, rfl, ?_, ?_, ?_, ?_⟩
    · apply sortValues_sorted ho.trans
      refine List.Pairwise.imp_of_mem ?_ (List.Pairwise.filter _ (distinct_pairwise (same eq isNan) row))
      intro a b ha hb hab
      have ha' : isNan a = false := by simpa using (List.mem_filter.mp ha).2
      have hb' : isNan b = false := by simpa using (List.mem_filter.mp hb).2
      rcases ho.total a b ha' hb' with h | h | h
      · exact .inl h
      · exact .inr h
      · simp [same, h] at hab
    · intro x hx
      have := (sortValues_perm _).mem_iff.mp hx
      simpa using (List.mem_filter.mp this).2
    · intro x hx
      exact (List.mem_filter.mp hx).2
    · rw [← filter_nan]
      cases ((distinct (same eq isNan) row).filter isNan).head? <;> simp

/-- **C80 (items and errors).** An item is left as it is. Items that have no order can not be sorted. -/
theorem C80_item (sortable sort : Bool) (s : Slice α) :
    (s.rank = 0 → unique eq isNan lt sortable sort s = .ok s) ∧
    (1 ≤ s.rank → unique eq isNan lt false true s = .error .sort) := by
  constructor
  · intro h
    have : s.edges = [] := List.eq_nil_of_length_eq_zero h
    unfold unique
    rw [this]
    rfl
  · intro h
    unfold unique
    have hne : s.edges ≠ [] := by intro h'; simp [Slice.rank, h'] at h
    rw [List.getLast?_eq_some_getLast hne]
    rfl

end

/-- Numbers with one that is not a number, `none`. -/
def exEq : Option Nat → Option Nat → Bool
  | some x, some y => x == y
  | _, _ => false

/-- The order of the numbers. -/
def exLt : Option Nat → Option Nat → Bool
  | some x, some y => decide (x < y)
  | _, _ => false

theorem exEq_ok : Equality exEq Option.isNone where
  refl := by intro x h; cases x <;> simp_all [exEq]
  symm := by
    intro x y
    cases x <;> cases y <;> simp only [exEq, Bool.false_eq_true, imp_self]
    intro h
    simpa using (eq_of_beq h).symm
  trans := by intro x y z; cases x <;> cases y <;> cases z <;> simp_all [exEq]
  nan := by intro x y h; cases x <;> simp_all [exEq]

theorem exLt_ok : Ordering exEq Option.isNone exLt where
  equal := by intro x y; cases x <;> cases y <;> simp [exLt, exEq]; omega
  asymm := by intro x y; cases x <;> cases y <;> simp [exLt]; omega
  trans := by intro x y z; cases x <;> cases y <;> cases z <;> simp [exLt]; omega
  total := by
    intro x y; cases x <;> cases y <;> simp [exLt, exEq]; omega

/-- Example: the same value in another group is left, missing items are not. -/
example :
    exSlice (unique exEq Option.isNone exLt true false
      ⟨[[2], [6, 3]], [some (some 5), none, some none, some (some 2), some none, some (some 5),
        some (some 5), some (some 5), none]⟩) =
      ⟨[[2], [3, 1]], [some (some 5), some none, some (some 2), some (some 5)]⟩ ∧
    exSlice (unique exEq Option.isNone exLt true true
      ⟨[[2], [6, 3]], [some (some 5), none, some none, some (some 2), some none, some (some 5),
        some (some 5), some (some 5), none]⟩) =
      ⟨[[2], [3, 1]], [some (some 2), some (some 5), some none, some (some 5)]⟩ := by
  decide +kernel

/-- **C80, witness.** For items of different types the code asks whether a value is a number of a type that does
not know (`IsNan` of a `DataItem` is never true), so values that are not a number are all left. -/
theorem C80_mixed_nan : ∃ s : Slice (Option Nat), Wf s ∧ 1 ≤ s.rank ∧
    exSlice (unique exEq (fun _ => false) exLt false false s) = s ∧
    s.items = [some none, some none] :=
  ⟨⟨[[2]], [some none, some none]⟩, by decide, by decide, by decide +kernel, rfl⟩

/-! ### subslice and take -/

/-- The range of all of a group. -/
def everything : Arg := .range none none

/-- **C81 (subslice).** `subslice` chooses with its last argument from the groups of the last dimension,
with the one before from the dimension before, and so on; the dimensions before are kept. An argument is
aligned with what the ones before have chosen. -/
theorem C81_subslice {x : Slice α} (hx : Wf x) (args : List Arg) (ha : ∀ a ∈ args, ArgWf a)
    (hl : args.length ≤ x.rank)
    (hs : SuitsAll (x.rank - args.length, cut (x.rank - args.length) (view x)) args) :
    ∃ t, subslice x args = .ok t ∧ Wf t ∧
      t.rank = (chooseMany (x.rank - args.length, cut (x.rank - args.length) (view x)) args).1 ∧
      view t = leavesAt t.rank uncut
        (chooseMany (x.rank - args.length, cut (x.rank - args.length) (view x)) args).2 :=
  (subslice_spec hx args ha).1 hl hs

/-- **C81 (errors).** Too many arguments are an error, and arguments that do not go with the shape of
what was chosen. -/
theorem C81_errors {x : Slice α} (hx : Wf x) (args : List Arg) (ha : ∀ a ∈ args, ArgWf a) :
    (x.rank < args.length → subslice x args = .error .rank) ∧
    (args.length ≤ x.rank →
      ¬ SuitsAll (x.rank - args.length, cut (x.rank - args.length) (view x)) args →
      subslice x args = .error .broadcast) :=
  ⟨(subslice_spec hx args ha).2.2, (subslice_spec hx args ha).2.1⟩

/-- The result is what the arguments choose from the whole of the nested list, or an error if they do not go
with it. -/
def Chooses (x : Slice α) (args : List Arg) (r : Except Err (Slice α)) : Prop :=
  (SuitsAll (0, .leaf (some (view x))) args → ∃ t, r = .ok t ∧ Wf t ∧
    t.rank = (chooseMany (0, .leaf (some (view x))) args).1 ∧
    view t = leavesAt t.rank uncut (chooseMany (0, .leaf (some (view x))) args).2) ∧
  (¬ SuitsAll (0, .leaf (some (view x))) args → r = .error .broadcast)

theorem chooses_full {x : Slice α} (hx : Wf x) (args : List Arg) (ha : ∀ a ∈ args, ArgWf a) (k : Nat)
    (hk : k + args.length = x.rank) :
    Chooses x (List.replicate k everything ++ args) (subslice x args) := by
  obtain ⟨h1, h2⟩ := subslice_full hx args ha k hk
  refine ⟨fun h => ?_, h2⟩
  obtain ⟨t, t1, t2, t3⟩ := h1 h
  exact ⟨t, t1, t2, congrArg Prod.fst t3, congrArg Prod.snd t3⟩

/-- **C81 (the operator).** Without an ellipsis, the arguments are those of the last dimensions, and all is chosen
from the dimensions before. The ellipsis stands for as many ranges of everything as there are
dimensions without an argument. More arguments than dimensions and more than one ellipsis are errors. -/
theorem C81_operator {x : Slice α} (hx : Wf x) (pre post : List Arg) (ha : ∀ a ∈ pre ++ post, ArgWf a) :
    (pre.length + post.length ≤ x.rank →
      Chooses x (List.replicate (x.rank - (pre.length + post.length)) everything ++ (pre ++ post))
        (subsliceOp x ((pre ++ post).map .arg)) ∧
      Chooses x (pre ++ List.replicate (x.rank - (pre.length + post.length)) everything ++ post)
        (subsliceOp x (pre.map .arg ++ .ellipsis :: post.map .arg))) ∧
    (x.rank < pre.length + post.length →
      subsliceOp x ((pre ++ post).map .arg) = .error .rank ∧
      subsliceOp x (pre.map .arg ++ .ellipsis :: post.map .arg) = .error .rank) ∧
    (∀ a b c, subsliceOp x (a ++ .ellipsis :: b ++ .ellipsis :: c) = .error .indices) := by
  have hno : ∀ l : List Arg, subsliceOp x (l.map .arg) =
      if l.length > x.rank then .error .rank else subslice x l := by
    intro l
    unfold subsliceOp slicingArgs
    rw [count_args, splitEllipsis_args]
    simp only
    rw [if_neg (by omega)]
    by_cases hl : l.length > x.rank
    · rw [if_pos hl, if_pos hl]
    · rw [if_neg hl, if_neg hl]
  refine ⟨fun h => ⟨?_, ?_⟩, fun h => ⟨?_, ?_⟩, fun a b c => ?_⟩
  · rw [hno, if_neg (by simp; omega)]
    exact chooses_full hx (pre ++ post) ha _ (by simp; omega)
  · rw [ellipsis_eq pre post h]
    by_cases hp : pre.length ≠ 0
    · rw [if_pos hp]
      have := chooses_full hx (pre ++ List.replicate (x.rank - (pre.length + post.length)) everything ++ post)
        (by
          intro a h
          simp only [List.mem_append] at h
          rcases h with (h | h) | h
          · exact ha a (by simp [h])
          · rw [List.eq_of_mem_replicate h]
            exact ⟨by simp, by simp⟩
          · exact ha a (by simp [h])) 0 (by simp; omega)
      exact this
    · rw [if_neg hp]
      have : pre = [] := List.eq_nil_of_length_eq_zero (by omega)
      subst this
      exact chooses_full hx post (by simpa using ha) _ (by simp at h ⊢; omega)
  · rw [hno, if_pos (by simp; omega)]
  · unfold subsliceOp slicingArgs
    rw [List.countP_append, List.countP_cons, count_args, count_args, splitEllipsis_one]
    simp only [isEllipsis, if_true]
    rw [if_neg (by simp), if_pos (by simp; omega)]
  · unfold subsliceOp
    rw [if_pos]
    simp only [List.countP_append, List.countP_cons, isEllipsis, if_true]
    omega

/-- **C81 (take).** `take` returns for each index the item with that index in the group of the last dimension,
counting from the end if it is negative, and a missing item if there is none. -/
theorem C81_take {x : Slice α} {i : Slice Int} (hx : Wf x) (hi : Wf i) :
    (x.rank = 0 → take x i = .error .item) ∧
    (1 ≤ x.rank →
      (Compatible (x.edges.take (x.rank - 1)) i.edges →
        ∃ t, take x i = .ok t ∧ Wf t ∧ t.rank = max (x.rank - 1) i.rank ∧
          view t = leavesAt t.rank (fun p => ((p.bind fun p => child p.1 p.2).getD (.leaf none)))
            (alignWith pairUp (x.rank - 1) i.rank (cut (x.rank - 1) (view x)) (view i))) ∧
      (¬ Compatible (x.edges.take (x.rank - 1)) i.edges → take x i = .error .shape)) := by
  constructor
  · intro h; unfold take; rw [if_pos h]
  · intro h1
    have hc : (!isBroadcastable (x.edges.take (x.rank - 1)) i.edges &&
        !isBroadcastable i.edges (x.edges.take (x.rank - 1))) = true ↔
        ¬ Compatible (x.edges.take (x.rank - 1)) i.edges := by
      unfold Compatible
      rw [← isBroadcastable_iff, ← isBroadcastable_iff]
      cases isBroadcastable (x.edges.take (x.rank - 1)) i.edges <;>
        cases isBroadcastable i.edges (x.edges.take (x.rank - 1)) <;> simp
    constructor
    · intro h
      unfold take
      rw [if_neg (by omega)]
      simp only
      rw [if_neg (fun h' => hc.mp h' h)]
      obtain ⟨-, hw, -, hst⟩ := start_spec hx (x.rank - 1) (by omega)
      have he := stateOf_edges (nest (x.edges.drop (x.rank - 1)) (x.items.map Tree.leaf)) hw
      rw [hst] at he
      obtain ⟨t, t1, t2, t3, t4⟩ := C81_subslice hx [.single i] (by simpa [ArgWf] using hi)
        (by simpa using h1) ⟨by
          show Compatible (treeEdges _ [_]) i.edges
          simp only [List.length_singleton]
          rw [he]
          exact h, trivial⟩
      refine ⟨t, t1, t2, t3, ?_⟩
      rw [t4, t3]
      obtain ⟨x', y', -, e1, e2, e3, e4, -, -, -, e5⟩ :=
        align2_spec (wf_map (lift (nest (x.edges.drop (x.rank - 1)) (x.items.map Tree.leaf))) hw) hi h
      have hv := e5 pairUp
      have hvs : view (mapItems (lift (nest (x.edges.drop (x.rank - 1)) (x.items.map Tree.leaf)))
        ⟨x.edges.take (x.rank - 1), (List.range (x.edges.getD (x.rank - 1) []).length).map
          fun (i : Nat) => some (i : Int)⟩) = cut (x.rank - 1) (view x) := congrArg Prod.snd hst
      have hrk : (x.edges.take (x.rank - 1)).length = x.rank - 1 := by simp [Slice.rank]
      have hrk' : (mapItems (lift (nest (x.edges.drop (x.rank - 1)) (x.items.map Tree.leaf)))
        ⟨x.edges.take (x.rank - 1), (List.range (x.edges.getD (x.rank - 1) []).length).map
          fun (i : Nat) => some (i : Int)⟩).rank = x.rank - 1 := hrk
      rw [hvs, hrk'] at hv
      rw [hrk'] at e2
      have e2' : x'.edges.length = max (x.rank - 1) i.rank := e2
      have k1 := congrArg (List.map (leavesAt x'.edges.length
        (fun p => ((p.bind fun p => child p.1 p.2).getD (.leaf none))))) hv
      have k2 := congrArg (List.map (leavesAt x'.edges.length uncut)) (congrArg (List.map (leavesAt x'.edges.length
        (fun p => Tree.leaf (p.bind fun p => child p.1 p.2)))) hv)
      rw [leavesAt_nest] at k1 k2
      rw [leavesAt_nest] at k2
      rw [e2'] at k1 k2
      have k3 := k2.symm.trans (Eq.trans (congrArg _ ?_) k1)
      · simpa [chooseMany, choose] using k3
      · rw [List.map_map]
        apply List.map_congr_left
        intro t _
        show uncut (t.item.bind fun p => child p.1 p.2) =
          (t.item.bind fun p => child p.1 p.2).getD (.leaf none)
        cases (t.item.bind fun p => child p.1 p.2) <;> rfl
    · intro h
      unfold take
      rw [if_neg (by omega)]
      simp only
      rw [if_pos (hc.mpr h)]

/-- Indices for the groups of groups. -/
def exIndices : Slice Int := ⟨[[2], [2, 1]], [some 0, some (-1), none]⟩

/-- Example: an item for each group; the last item of each group and its first two; ranges that differ by the
group; a range of groups. -/
example : Wf exIndices ∧
    exSlice (take exNested exIndices) = ⟨[[2], [2, 1]], [some 1, none, none]⟩ ∧
    exSlice (subslice exNested [.single ⟨[], [some (-1)]⟩]) = ⟨[[2], [2, 1]], [some 1, none, some 5]⟩ ∧
    exSlice (subslice exNested [.range none (some ⟨[], [some 1]⟩)]) =
      ⟨[[2], [2, 1], [1, 1, 1]], [some 1, some 2, some 4]⟩ ∧
    exSlice (subslice exNested [.range (some ⟨[[2]], [some 1, some (-2)]⟩) none]) =
      ⟨[[2], [2, 1], [0, 1, 2]], [none, some 4, some 5]⟩ ∧
    exSlice (subslice exNested [.range (some ⟨[], [some 1]⟩) none, .single ⟨[], [some 0]⟩]) =
      ⟨[[2], [1, 0]], [some 2]⟩ ∧
    exSlice (subsliceOp exNested [.arg (.single ⟨[], [some 0]⟩), .ellipsis, .arg (.single ⟨[], [some 0]⟩)]) =
      ⟨[[2]], [some 1, some 2]⟩ := by
  decide +kernel

/-- Example: the errors. -/
example : exErr (take exNested (⟨[[3]], [none, none, none]⟩)) = some .shape ∧
    exErr (subslice exNested [.single ⟨[[3]], [none, none, none]⟩]) = some .broadcast ∧
    exErr (subsliceOp exNested [.ellipsis, .ellipsis]) = some .indices ∧
    exErr (subsliceOp (⟨[], [some 1]⟩ : Slice Nat) [.arg everything]) = some .rank := by
  decide +kernel

end Verif.SliceOps
