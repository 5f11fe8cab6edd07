import Verif.Reshape.Model

/-!
What the round trip keeps.
-/

namespace Verif.Reshape

/-- Without the last elements, as long as `p`. -/
def dropTrailing {R : Type} (p : R → Bool) : List R → List R
  | [] => []
  | x :: l =>
    match dropTrailing p l with
    | [] => if p x then [] else [x]
    | y :: r => x :: y :: r

/-- A slice without elements. -/
def noElements {V : Type} : (n : Nat) → Nest V n → Bool
  | 0, _ => false
  | n + 1, rows => List.all rows (noElements n)

/-- The slice without rows without elements at the ends. -/
def trim {V : Type} : (n : Nat) → Nest V n → Nest V n
  | 0, v => v
  | n + 1, rows => (dropTrailing (noElements n) rows).map (trim n)

/-- Nothing ends with a row without elements. -/
def Closed {V : Type} : (n : Nat) → Nest V n → Prop
  | 0, _ => True
  | n + 1, rows => (∀ r ∈ (show List (Nest V n) from rows), Closed n r) ∧
      ∀ r, (show List (Nest V n) from rows).getLast? = some r → noElements n r = false

end Verif.Reshape
