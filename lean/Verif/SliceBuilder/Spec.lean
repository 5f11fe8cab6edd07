import Verif.SliceBuilder.Model

/-!
What a builder builds.
-/

namespace Verif.SliceBuilder

variable {T V : Type} [DecidableEq T]

/-- What a call offers for the element `j`: nothing, or a value that may be missing. -/
def offered : Op T V → Nat → Option (Option V)
  | .one id v, j => if j = id then some v else none
  | .mask m, j => if m[j]? = some false then some none else none
  | .batch _ m vs, j =>
    match m[j]? with
    | some (true, true) => some vs[j]?
    | some (true, false) => some none
    | _ => none
  | .typed _ items, j => items.findSome? fun p => if j = p.1 then some p.2 else none

/-- The first offer counts, also if it is a missing value. -/
def outcome (ops : List (Op T V)) (j : Nat) : Option (Option V) := ops.findSome? (offered · j)

/-- Calls are about the elements of the slice, and batches and views have values of their type. -/
def Fits (tyOf : V → T) (size : Nat) : Op T V → Prop
  | .one id _ => id < size
  | .mask m => m.length = size
  | .batch t m vs => m.length = size ∧ vs.length = size ∧ ∀ v ∈ vs, tyOf v = t
  | .typed t items => ∀ p ∈ items, p.1 < size ∧ ∀ v, p.2 = some v → tyOf v = t

end Verif.SliceBuilder
