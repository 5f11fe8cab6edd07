import Verif.SliceBuilder.Model

/-!
Model of `kd.coalesce` and `kd.disjoint_coalesce` on values: `PresenceOrOp`
(koladata/internal/op_utils/presence_or.h) and `PresenceAndOp` (koladata/internal/op_utils/presence_and.h).

Slices are arrays of values, one for each type (data_slice.h). Buffers have unspecified values at elements
that are missing (`junk`). Not modelled: allocation ids, the payload of errors, schemas and shapes.
-/

namespace Verif.Coalesce

open Verif.SliceBuilder

variable {T V : Type} [DecidableEq T]

/-- `DataSliceImpl`: arrays for types (data_slice.h:133-147). -/
structure DS (T V : Type) where
  size : Nat
  values : List (T × List (Option V))

/-- `operator[]` (data_slice.cc:349-378): the value of the array that has the element. -/
def get (l : List (T × List (Option V))) (j : Nat) : Option V := l.findSome? fun a => (a.2[j]?).join

/-- `present_count` (data_slice.h:133): the number of elements with a value. -/
def presentCount (s : DS T V) : Nat := (List.range s.size).countP fun j => (get s.values j).isSome

/-- `bldr.InsertIfNotSet<T>(array.bitmap, {}, array.values)` (presence_or.h:112-113). -/
def batchOf (junk : T → V) (a : T × List (Option V)) : Op T V :=
  .batch a.1 (a.2.map fun x => (x.isSome, true)) (a.2.map fun x => x.getD (junk a.1))

/-- A builder that gets arrays (presence_or.h:98-135, presence_and.h:43-73). -/
def fromArrays (tyOf : V → T) (junk : T → V) (size : Nat) (l : List (T × List (Option V))) :
    Option (DS T V) :=
  match applyAll tyOf (l.map (batchOf junk)) (new size) with
  | none => none
  | some b => some { size := size, values := (build b).values }

/-- `DenseArrayPresenceAndOp` (presence_and.h:60-62). -/
def andArray (a : List (Option V)) (mask : List Bool) : List (Option V) :=
  List.zipWith (fun x k => if k then x else none) a mask

/-- `DenseArrayPresenceOrOp` (presence_or.h:109-111). -/
def orArray (a b : List (Option V)) : List (Option V) := List.zipWith (fun x y => x.or y) a b

/-- The loop of `PresenceAndOp` for an array (presence_and.h:59-72). -/
def andOne (mask : List Bool) (a : T × List (Option V)) : Option (T × List (Option V)) :=
  if (andArray a.2 mask).any Option.isSome then some (a.1, andArray a.2 mask) else none

/-- `PresenceAndOp` with a mask of the size of the slice (presence_and.h:40-74). -/
def presenceAnd (tyOf : V → T) (junk : T → V) (s : DS T V) (mask : List Bool) : Option (DS T V) :=
  fromArrays tyOf junk s.size (s.values.filterMap (andOne mask))

/-- `PresenceDenseArray` (has.cc:29-48), the mask of `HasOp` (has.h:31-35). -/
def presence (s : DS T V) : List Bool :=
  match s.values with
  | [] => List.replicate s.size false
  | a :: rest =>
    rest.foldl (fun r b => List.zipWith (fun x y => x || y) (b.2.map Option.isSome) r) (a.2.map Option.isSome)

/-- `lhs_missing_mask` (presence_or.h:75-86). -/
def missing (s : DS T V) : List Bool := (presence s).map fun k => !k

/-- Results: `null` stands for a null pointer. -/
inductive Res (T V : Type) where
  | ok (s : DS T V)
  | sizes
  | overlap
  | null

/-- A result of a builder (presence_or.h:135). -/
def ofBuilt : Option (DS T V) → Res T V
  | some s => .ok s
  | none => .null

/-- `_single_type_case` (presence_or.h:165-190). -/
def singleCase (tyOf : V → T) (junk : T → V) (disjoint : Bool) (size : Nat) (t : T)
    (a b : List (Option V)) : Res T V :=
  if disjoint && (a.countP Option.isSome + b.countP Option.isSome != (orArray a b).countP Option.isSome)
  then .overlap
  else ofBuilt (fromArrays tyOf junk size [(t, orArray a b)])

/-- The array of the left slice, merged with that of the same type on the right (presence_or.h:101-121). -/
def mergeOne (r : List (T × List (Option V))) (a : T × List (Option V)) : T × List (Option V) :=
  match r.lookup a.1 with
  | some b => (a.1, orArray a.2 b)
  | none => a

/-- The batches of the mixed case (presence_or.h:100-134). -/
def mixedArrays (l r : List (T × List (Option V))) : List (T × List (Option V)) :=
  l.map (mergeOne r) ++ r.filter fun b => !(l.map Prod.fst).contains b.1

/-- `PresenceOrOp` from the mask on (presence_or.h:75-135). -/
def mixedCase (tyOf : V → T) (junk : T → V) (disjoint : Bool) (l r : DS T V) : Res T V :=
  match presenceAnd tyOf junk r (missing l) with
  | none => .null
  | some f =>
    if disjoint && (presentCount r != presentCount f) then .overlap
    else if presentCount f = 0 then .ok l
    else ofBuilt (fromArrays tyOf junk l.size (mixedArrays l.values f.values))

/-- `PresenceOrOp` of slices (presence_or.h:57-136). -/
def presenceOr (tyOf : V → T) (junk : T → V) (disjoint : Bool) (l r : DS T V) : Res T V :=
  if l.size ≠ r.size then .sizes
  else if presentCount r = 0 then .ok l
  else
    match l.values, r.values with
    | [], _ => .ok r
    | [(t, a)], [(u, b)] =>
      if t = u then singleCase tyOf junk disjoint l.size t a b else mixedCase tyOf junk disjoint l r
    | _, _ => mixedCase tyOf junk disjoint l r

/-- `DataSliceImpl::Create(size, item)` of a value (presence_or.h:148). -/
def const (tyOf : V → T) (size : Nat) (v : V) : DS T V :=
  { size := size, values := [(tyOf v, List.replicate size (some v))] }

/-- `PresenceOrOp` of a slice and an item (presence_or.h:138-149). -/
def orItem (tyOf : V → T) (junk : T → V) (disjoint : Bool) (l : DS T V) : Option V → Res T V
  | none => .ok l
  | some v =>
    if disjoint && !l.values.isEmpty then .overlap
    else if l.size = presentCount l then .ok l
    else presenceOr tyOf junk disjoint l (const tyOf l.size v)

/-- `PresenceOrOp` of items (presence_or.h:151-162): `none` is an overlap. -/
def itemOr (disjoint : Bool) (l r : Option V) : Option (Option V) :=
  if disjoint && l.isSome && r.isSome then none
  else if l.isSome then some l
  else some r

/-- `PresenceAndOp` with the check of sizes (presence_and.h:40-74). The mask is a list of bools: errors for
values that are no masks are not modelled. -/
def andSlice (tyOf : V → T) (junk : T → V) (s : DS T V) (mask : List Bool) : Res T V :=
  if s.size ≠ mask.length then .sizes else ofBuilt (presenceAnd tyOf junk s mask)

/-- `CoalesceWithFiltered` of slices (coalesce_with_filtered.h:28-35). -/
def withFiltered (tyOf : V → T) (junk : T → V) (filter l r : DS T V) : Res T V :=
  match andSlice tyOf junk r (presence filter) with
  | .ok f => presenceOr tyOf junk false l f
  | e => e

/-- `CoalesceWithFiltered` of items (coalesce_with_filtered.h:28-35, has.h:37-42, presence_and.h:76-92). -/
def itemWithFiltered (filter l r : Option V) : Option (Option V) :=
  itemOr false l (if filter.isSome then r else none)

end Verif.Coalesce
