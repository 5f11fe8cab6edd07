import Verif.Coalesce.Model

/-!
Slices, and what `coalesce` should give.
-/

namespace Verif.Coalesce

variable {T V : Type} [DecidableEq T]

/-- The element `j` has the value `v`. -/
def Has (l : List (T × List (Option V))) (j : Nat) (v : V) : Prop := ∃ a ∈ l, a.2[j]? = some (some v)

/-- A slice: one array for each type, with values of the type, and at most one value for an element. -/
structure Ok (tyOf : V → T) (s : DS T V) : Prop where
  nodup : (s.values.map Prod.fst).Nodup
  len : ∀ a ∈ s.values, a.2.length = s.size
  typed : ∀ a ∈ s.values, ∀ (j : Nat) v, a.2[j]? = some (some v) → tyOf v = a.1
  uniq : ∀ j v w, Has s.values j v → Has s.values j w → v = w

/-- Both slices have a value at an element. -/
def Overlap (l r : DS T V) : Prop := ∃ j v w, Has l.values j v ∧ Has r.values j w

/-- A slice with the values of the left one, and those of the right one elsewhere. -/
def Coalesced (tyOf : V → T) (l r s : DS T V) : Prop :=
  Ok tyOf s ∧ s.size = l.size ∧
  ∀ j v, Has s.values j v ↔ Has l.values j v ∨ ((∀ w, ¬ Has l.values j w) ∧ Has r.values j v)

end Verif.Coalesce
