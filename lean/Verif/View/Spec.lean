import Verif.View.Model

/-!
A view of depth `d` is a nested tuple; its items are at the index paths of length `d`.
-/
namespace Verif.View

variable {A : Type}

/-- The object at an index path. -/
def Obj.at? : Obj A → List Nat → Option (Obj A)
  | o, [] => some o
  | .tup xs, i :: p => match xs[i]? with
    | some x => x.at? p
    | Option.none => Option.none
  | _, _ :: _ => Option.none

/-- The object is a tuple of tuples ..., `n` levels deep. -/
def Nested : Nat → Obj A → Prop
  | 0, _ => True
  | n + 1, o => ∃ xs, o = .tup xs ∧ ∀ x ∈ xs, Nested n x

/-- The objects at depth `n`, from left to right. -/
def leaves : Nat → Obj A → List (Obj A)
  | 0, o => [o]
  | n + 1, .tup xs => xs.flatMap (leaves n)
  | _ + 1, _ => []

/-- The index paths of the objects at depth `n`, from left to right. -/
def positions : Nat → Obj A → List (List Nat)
  | 0, _ => [[]]
  | n + 1, .tup xs => xs.zipIdx.flatMap fun xi => (positions n xi.1).map (xi.2 :: ·)
  | _ + 1, _ => []

/-- A view as the API creates them. -/
def View.Wf (v : View A) : Prop := Nested v.depth v.obj

/-- The two views have tuples of the same length wherever both have a tuple inside
their shape. -/
def Agree (v w : View A) : Prop :=
  ∀ (p : List Nat) (xs ys : List (Obj A)), p.length < v.depth → p.length < w.depth →
    v.obj.at? p = some (.tup xs) → w.obj.at? p = some (.tup ys) → xs.length = ys.length

/-- All views have compatible shapes. -/
def Compatible (vs : List (View A)) : Prop := ∀ v ∈ vs, ∀ w ∈ vs, Agree v w

/-- The item of a view at a path of a deeper view: the path is cut to the depth. -/
def View.itemAt (v : View A) (p : List Nat) : Option (Obj A) := v.obj.at? (p.take v.depth)

/-- Both objects are nested tuples with the same lengths, `n` levels deep. -/
def ShapeEq : Nat → Obj A → Obj A → Prop
  | 0, _, _ => True
  | n + 1, o, o' => ∃ xs ys, o = .tup xs ∧ o' = .tup ys ∧ xs.length = ys.length ∧
      ∀ (i : Nat) x y, xs[i]? = some x → ys[i]? = some y → ShapeEq n x y

/-- Two views have the same shape. -/
def SameShape (v w : View A) : Prop := v.depth = w.depth ∧ ShapeEq v.depth v.obj w.obj

/-- What iterating over an object gives; iterating over `None` gives nothing. -/
def iterate (iterAtom : A → Option (List (Obj A))) (h : Heap A) : Obj A → Option (List (Obj A))
  | .none => some []
  | .tup xs => some xs
  | .ref r => h[r]?
  | .atom a => iterAtom a
  | .present => Option.none

end Verif.View
