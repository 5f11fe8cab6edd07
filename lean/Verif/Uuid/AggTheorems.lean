import Verif.Uuid.InputTheorems

/-!
C35: `kd.agg_uuid`, with the replacement of missing items (py/koladata/operators/ids.py:222-241).
-/

namespace Verif.Uuid

open Verif.ObjectId

/-- `_AGG_UUID_MISSING_VALUE_REPLACEMENT` (ids.py:30). -/
def aggReplacement : Bytes := chars "__empty_input_to_uuid__".toList

/-- `x | _AGG_UUID_MISSING_VALUE_REPLACEMENT` for an item (ids.py:235-240). -/
def replaceMissing : Item → Item
  | .missing => .text aggReplacement
  | x => x

/-- `kd.agg_uuid` of the items of a group (ids.py:222-241). -/
def aggUuidOp {S : Type} (H : HashFn S) (items : List Item) := aggUuid H (items.map replaceMissing)

theorem replace_present (x : Item) : replaceMissing x ≠ .missing := by
  cases x <;> simp [replaceMissing]

/-- The aggregated uuid is the hash of inputs for all elements, missing ones too. -/
theorem C35_agg_op_is_hash {S : Type} (H : HashFn S) (items : List Item) :
    aggUuidOp H items = createUuidObject (H.finish (H.over (aggInputs
      (items.map fun x => stableFingerprint H (replaceMissing x))))) .default := by
  unfold aggUuidOp
  rw [(C35_uuids_are_hashes H [] (items.map replaceMissing) [] []).2.2]
  have : (items.map replaceMissing).filter (fun x => x ≠ .missing) = items.map replaceMissing := by
    rw [List.filter_eq_self]
    intro x hx
    obtain ⟨y, _, rfl⟩ := List.mem_map.1 hx
    simpa using replace_present y
  rw [this, List.map_map]
  rfl

/-- Groups with different items, in another order, or with missing items at other places give different inputs,
unless fingerprints of items collide or an item is the text that stands for missing ones. -/
theorem C35_agg_op_inputs_differ {S : Type} (H : HashFn S) (xs ys : List Item)
    (hfp : ∀ x ∈ xs, ∀ y ∈ ys, stableFingerprint H (replaceMissing x) = stableFingerprint H (replaceMissing y) →
      replaceMissing x = replaceMissing y)
    (hx : Item.text aggReplacement ∉ xs) (hy : Item.text aggReplacement ∉ ys)
    (h : aggInputs (xs.map fun x => stableFingerprint H (replaceMissing x)) =
      aggInputs (ys.map fun x => stableFingerprint H (replaceMissing x))) : xs = ys := by
  have hl := C35_agg_inputs_differ _ _ h
  have hlen : xs.length = ys.length := by simpa using congrArg List.length hl
  apply List.ext_getElem hlen
  intro j h1 h2
  have hj := congrArg (fun l => l[j]?) hl
  simp only [List.getElem?_map, List.getElem?_eq_getElem h1, List.getElem?_eq_getElem h2, Option.map_some,
    Option.some.injEq] at hj
  have m1 := List.getElem_mem h1
  have m2 := List.getElem_mem h2
  have he := hfp _ m1 _ m2 hj
  revert he m1 m2
  generalize xs[j] = x
  generalize ys[j] = y
  intro m1 m2 he
  by_cases e1 : x = .missing
  · by_cases e2 : y = .missing
    · rw [e1, e2]
    · subst e1
      have : replaceMissing y = y := by cases y <;> first | rfl | exact (e2 rfl).elim
      rw [this] at he
      exact (hy (by rw [replaceMissing] at he; rw [he]; exact m2)).elim
  · have t1 : replaceMissing x = x := by cases x <;> first | rfl | exact (e1 rfl).elim
    by_cases e2 : y = .missing
    · subst e2
      rw [t1, replaceMissing] at he
      exact (hx (by rw [← he]; exact m1)).elim
    · have t2 : replaceMissing y = y := by cases y <;> first | rfl | exact (e2 rfl).elim
      rw [t1, t2] at he
      exact he

/-- Finding: the exception is real. A missing item and the text that stands for it have the same uuid, for every
hash function. -/
theorem C35_agg_missing_collides {S : Type} (H : HashFn S) (pre post : List Item) :
    aggUuidOp H (pre ++ .missing :: post) = aggUuidOp H (pre ++ .text aggReplacement :: post) := by
  unfold aggUuidOp
  simp [replaceMissing]

/-- Example: the elements after a missing one are at other places. -/
example : aggInputs ([Item.int32 1, .missing, .int32 2].map fun x => stableFingerprint record (replaceMissing x)) ≠
    aggInputs ([Item.int32 1, .int32 2].map fun x => stableFingerprint record (replaceMissing x)) := by
  intro h
  have := congrArg List.length (C35_agg_inputs_differ _ _ h)
  exact absurd this (by decide)

end Verif.Uuid
