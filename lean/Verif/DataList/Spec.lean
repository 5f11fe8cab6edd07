import Verif.DataList.Model

/-! The calls on a Koda list and what they do to a plain sequence of optional values. -/

namespace Verif.DataList

variable {Ty : Type} [DecidableEq Ty] {Val : Ty → Type}

/-- The values of an array, position by position. -/
def DenseArray.optionals {T : Type} (a : DenseArray T) : List (Option T) :=
  if a.bitmap = [] then a.values.map some
  else List.zipWith (fun v (b : Bool) => if b then some v else none) a.values a.bitmap

/-- The bitmap is empty or has one bit for each value. -/
def DenseArray.Valid {T : Type} (a : DenseArray T) : Prop :=
  a.bitmap = [] ∨ a.bitmap.length = a.values.length

/-- The modifying calls. -/
inductive Op {Ty : Type} (Val : Ty → Type) where
  | set (index : Nat) (item : DataItem Val)
  | setT (index : Nat) (t : Ty) (value : Option (Val t))
  | setToMissing (index : Nat)
  | setMissingRange (start stop : Nat)
  | setN (start : Nat) (t : Ty) (data : DenseArray (Val t))
  | insert (index : Nat) (item : DataItem Val)
  | insertT (index : Nat) (t : Ty) (value : Option (Val t))
  | insertMissing (start count : Nat)
  | remove (start count : Nat)
  | resize (size : Nat)

/-- The call is allowed on a list of the size `n`. -/
def Op.Valid (n : Nat) : Op Val → Prop
  | .set i _ => i < n
  | .setT i _ _ => i < n
  | .setToMissing i => i < n
  | .setMissingRange start stop => start ≤ stop ∧ stop ≤ n
  | .setN start _ data => start + data.values.length ≤ n ∧ data.Valid
  | .insert i _ => i ≤ n
  | .insertT i _ _ => i ≤ n
  | .insertMissing start count => start ≤ n ∧ 0 < count
  | .remove start count => start + count ≤ n ∧ 0 < count
  | .resize _ => True

/-- The optional value as an item. -/
def item {t : Ty} (v : Option (Val t)) : DataItem Val :=
  match v with
  | none => .missing
  | some v => .val t v

/-- The call on a plain sequence. -/
def Op.onList (xs : List (DataItem Val)) : Op Val → List (DataItem Val)
  | .set i x => xs.set i x
  | .setT i _ v => xs.set i (item v)
  | .setToMissing i => xs.set i .missing
  | .setMissingRange start stop =>
    xs.take start ++ List.replicate (stop - start) .missing ++ xs.drop stop
  | .setN start _ data =>
    xs.take start ++ data.optionals.map item ++ xs.drop (start + data.values.length)
  | .insert i x => xs.take i ++ [x] ++ xs.drop i
  | .insertT i _ v => xs.take i ++ [item v] ++ xs.drop i
  | .insertMissing start count =>
    xs.take start ++ List.replicate count .missing ++ xs.drop start
  | .remove start count => xs.take start ++ xs.drop (start + count)
  | .resize n => xs.take n ++ List.replicate (n - xs.length) .missing

/-- The call on a Koda list. -/
def Op.onDataList (l : DataList Val) : Op Val → DataList Val
  | .set i x => l.set i x
  | .setT i t v => l.setT i t v
  | .setToMissing i => l.setToMissing i
  | .setMissingRange start stop => l.setMissingRange start stop
  | .setN start t data => l.setN start t data
  | .insert i x => l.insert i x
  | .insertT i t v => l.insertT i t v
  | .insertMissing start count => l.insertMissing start count
  | .remove start count => l.remove start count
  | .resize n => l.resize n

/-- Each call of the sequence is allowed. -/
def ValidOps (xs : List (DataItem Val)) : List (Op Val) → Prop
  | [] => True
  | op :: ops => op.Valid xs.length ∧ ValidOps (op.onList xs) ops

/-- The ways to make a Koda list, and the sequence that it holds. -/
inductive Made : DataList Val → List (DataItem Val) → Prop
  | empty : Made .empty []
  | ofVec (t : Ty) (vec : List (Option (Val t))) : Made (.ofVec t vec) (vec.map item)
  | ofItems (vec : List (DataItem Val)) : Made (.ofItems vec) vec
  | ofArray (t : Ty) (a : DenseArray (Val t)) (start stop : Nat) :
    a.Valid → start ≤ stop → stop ≤ a.values.length →
    Made (.ofDenseArray t a start (some stop)) (((a.optionals.map item).take stop).drop start)
  | ofWholeArray (t : Ty) (a : DenseArray (Val t)) : a.Valid →
    Made (.ofDenseArray t a 0 none) (a.optionals.map item)
  | ofSlice (xs : List (DataItem Val)) (start stop : Nat) :
    start ≤ stop → stop ≤ xs.length →
    Made (.ofSlice xs start (some stop)) ((xs.take stop).drop start)
  | ofWholeSlice (xs : List (DataItem Val)) : Made (.ofSlice xs 0 none) xs

end Verif.DataList
