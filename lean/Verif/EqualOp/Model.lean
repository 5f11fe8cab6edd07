import Verif.Coalesce.Spec

/-!
Model of `kd.equal` on values: `EqualOp` (koladata/internal/op_utils/equal.h and equal.cc).

Slices are as in `Verif.Coalesce`. `num` says which types are numeric, `eq` is `==` of C++ on values of
comparable types (it need not be reflexive: NaN).
-/

namespace Verif.EqualOp

open Verif.Coalesce

variable {T V : Type} [DecidableEq T]

/-- `Comparable` (equal.h:37-43). -/
def comparable (num : T → Bool) (t u : T) : Bool := t == u || (num t && num u)

/-- `EqualOp` of items (equal.cc:31-45). -/
def itemEqual (tyOf : V → T) (num : T → Bool) (eq : V → V → Bool) : Option V → Option V → Bool
  | some l, some r => if comparable num (tyOf l) (tyOf r) then eq l r else false
  | _, _ => false

/-- `MaskEqualOp` of a dense operator (equal.h:45-56, equal.cc:67-72): missing values give missing. The flags
of the operator (it also runs on missing values, whose results are dropped) are not modelled. -/
def subRes (eq : V → V → Bool) (a b : List (Option V)) : List Bool :=
  List.zipWith (fun x y =>
    match x, y with
    | some l, some r => eq l r
    | _, _ => false) a b

/-- The body of the inner loop (equal.cc:62-81). -/
def step (num : T → Bool) (eq : V → V → Bool) (a : T × List (Option V)) (result : List Bool)
    (b : T × List (Option V)) : List Bool :=
  if comparable num a.1 b.1 then
    if result.countP id = 0 then subRes eq a.2 b.2
    else List.zipWith (fun x y => x || y) result (subRes eq a.2 b.2)
  else result

/-- `EqualOp` of slices (equal.cc:47-84): `none` is the error about sizes. -/
def sliceEqual (num : T → Bool) (eq : V → V → Bool) (l r : DS T V) : Option (List Bool) :=
  if l.size ≠ r.size then none
  else if r.values.isEmpty || l.values.isEmpty then some (List.replicate l.size false)
  else
    some (l.values.foldl (fun res a => r.values.foldl (step num eq a) res) (List.replicate l.size false))

end Verif.EqualOp
