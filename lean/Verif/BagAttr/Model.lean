import Verif.Common.PyDict
/-
The attribute storage of a data bag.

Models /repo/koladata/internal/data_bag.cc, data_bag.h, dense_source.cc,
dense_source.h, sparse_source.cc, sparse_source.h and the parts of
data_slice.cc/.h and slice_builder.cc/.h these use: reading an attribute of one
object or of a slice of objects (with fallback bags), writing an attribute,
creating objects, forking a bag, merging one bag into another and computing an
overwriting update.

Simplifications that hold for the whole file:
* A bag is a value.  Forks share the layers of their parent by value: the code
  shares pointers, but a bag that has been forked is not modified any more
  (data_bag.h 159-160), and `DataBag` enforces it.
* A hash map is an association list with unique keys; loops over a hash map run
  in the order of the list.
* The state a bag is left in by an operation that returns an error is not
  modelled.
* Lists and dicts of a bag are represented by one flag ("there are some").
* Allocation ids stored next to values, memory statistics, cancellation and the
  texts of error messages are left out.
-/

namespace Verif.BagAttr

abbrev Attr := Nat

/-- A present value of a `DataItem` (data_item.h).  `ty` is its scalar type
(`KodaTypeId`), `num` its value as `==` sees it, `bits` its representation (so
that `0.0` and `-0.0` are equal but not the same), `nan` tells that it is a
floating point NaN. -/
structure Val where
  ty : Nat
  num : Nat
  bits : Nat
  nan : Bool
deriving DecidableEq, Repr

/-- `DataItem`: a value, or missing. -/
abbrev Item := Option Val

/-- `std::optional<DataItem>`: `none` is "unset" (other sources may know the
value), `some none` is "removed" (explicitly set to missing). -/
abbrev Cell := Option Item

/-- `AllocationId` (object_id.h 290-340).  `bits` is `offset_bits_`; `n` is the
number of objects the allocation was made for (`Allocate(size)`), which the code
does not store: it only occurs in well-formedness conditions. -/
structure Alloc where
  id : Nat
  bits : Nat
  n : Nat
deriving DecidableEq, Repr

/-- `AllocationId::Capacity` (object_id.h 317). -/
def Alloc.capacity (a : Alloc) : Nat := 2 ^ a.bits

/-- `AllocationId::IsSmall`, `ObjectId::IsSmallAlloc` (object_id.h 50, 112). -/
def Alloc.isSmall (a : Alloc) : Bool := a.bits ≤ 1

/-- `ObjectId` of an object: its allocation and its offset in it. -/
structure Obj where
  alloc : Alloc
  off : Nat
deriving DecidableEq, Repr

/-- `operator==` of two present `DataItem`s (data_item.h 245-269): same type and
equal values; NaN is not equal to itself. -/
def Val.eq (a b : Val) : Bool := a.ty == b.ty && a.num == b.num && !a.nan && !b.nan

/-- `ValuesAreDifferent` of two `DataItem`s (data_bag.cc 196-202). -/
def itemsDiffer (a b : Item) : Bool :=
  match a, b with
  | none, none => false
  | some x, some y => !(x.eq y || (x.nan && y.nan))
  | _, _ => true

/-- `ValuesAreDifferent<T>` of two values of one type (dense_source.cc 75-86). -/
def valuesDiffer (a b : Val) : Bool := !(a.eq b || (a.nan && b.nan))

/-- `ValuesAreDifferent` of two optional values of one type
(dense_source.cc 88-95). -/
def optsDiffer (a b : Item) : Bool :=
  match a, b with
  | some x, some y => valuesDiffer x y
  | a, b => a.isSome != b.isSome

inductive Err where
  | frozen          -- "modifying a frozen DataBagImpl is not allowed"
  | primitive       -- "... attribute of a primitive is not allowed"
  | sizeMismatch
  | capacity        -- "data slice exceed capacity"
  | immutable       -- "SetAttr is not allowed for an immutable DenseSource."
  | conflict        -- a merge conflict
  | outOfBounds     -- not an error of the code: an access out of the bounds of an array
deriving DecidableEq, Repr

/-! ### Slices -/

/-- `DataSliceImpl` (data_slice.h 63-400).  `cells` are the elements, `types` the
scalar types of its arrays in order, `tb` tells whether it has a `TypesBuffer`.
Without one every missing element is a removed one. -/
structure Slice where
  cells : List Cell
  types : List Nat
  tb : Bool
deriving DecidableEq, Repr

/-- `is_empty_and_unknown` (data_slice.h 142). -/
def Slice.isEmptyAndUnknown (s : Slice) : Bool := s.types.isEmpty

/-- `is_mixed_dtype` (data_slice.h 136). -/
def Slice.isMixed (s : Slice) : Bool := 1 < s.types.length

/-- `dtype`, `none` for NOTHING (data_slice.h 144-147). -/
def Slice.dtype (s : Slice) : Option Nat :=
  match s.types with
  | [t] => some t
  | _ => none

/-- `operator[]` (data_slice.h 241): missing for unset and removed elements. -/
def Slice.item (s : Slice) (i : Nat) : Item := (s.cells[i]?.getD none).getD none

/-- `CreateEmptyAndUnknownType(size)`: all removed (data_slice.cc 109-116). -/
def Slice.allRemoved (n : Nat) : Slice :=
  { cells := List.replicate n (some none), types := [], tb := false }

/-- The types of a builder after one more element is inserted (slice_builder.cc,
`GetTypedStorage`). -/
def addType (ts : List Nat) (c : Cell) : List Nat :=
  match c with
  | some (some v) => if v.ty ∈ ts then ts else ts ++ [v.ty]
  | _ => ts

/-- The scalar types of the present values, in order of first appearance. -/
def presentTypes (cells : List Cell) : List Nat := cells.foldl addType []

/-- `SliceBuilder::Build` (slice_builder.cc 104-146): always with a
`TypesBuffer`, and without the types that have no present value.  Simplified: the
types are in the order of their first value (in the code, of the first call that
mentions the type). -/
def build (cells : List Cell) : Slice :=
  { cells := cells, types := presentTypes cells, tb := true }

/-- `DataSliceImpl::UnsetToRemoved` (data_slice.cc 217-242). -/
def Slice.unsetToRemoved (s : Slice) : Slice :=
  if !s.tb then s
  else if s.types.isEmpty then Slice.allRemoved s.cells.length
  else
    { cells := s.cells.map (fun c => match c with
        | none => some none
        | some x => some x)
      types := s.types
      tb := 1 < s.types.length }

/-- `DataSliceImpl::SubSlice(0, size)` (data_slice.cc 196-215). -/
def Slice.prefixOf (s : Slice) (n : Nat) : Slice :=
  { s with cells := s.cells.take n }

/-- A slice of objects as the attribute functions see it: `allocs` and `small`
are `allocation_ids()` (big allocations, and `contains_small_allocation_id`). -/
inductive Objs where
  | emptyAndUnknown (size : Nat)
  | primitives (size : Nat)
  | objects (ids : List (Option Obj)) (allocs : List Alloc) (small : Bool)
deriving DecidableEq, Repr

/-! ### Slice builder -/

/-- `SliceBuilder(size)` followed by `ApplyMask(objs.ToMask())`
(slice_builder.cc 44-49, slice_builder.h): unset where there is an object,
removed where there is none. -/
def mask (ids : List (Option Obj)) : List Cell :=
  ids.map fun o => match o with
    | some _ => none
    | none => some none

/-- `is_finalized`: no element is unset. -/
def finalized (b : List Cell) : Bool := b.all (·.isSome)

/-- A loop `for i: if (bldr.IsSet(i)) continue; ... InsertIfNotSet(i, ...)`, with
`f` telling what (if anything) is inserted for an object. -/
def fill (f : Obj → Cell) (ids : List (Option Obj)) (b : List Cell) : List Cell :=
  List.zipWith (fun o c =>
    match c with
    | some x => some x
    | none => o.bind f) ids b

/-! ### Sparse sources -/

/-- `SparseSource` (sparse_source.h): `alloc = none` is the source for all small
allocations. -/
structure Sparse where
  alloc : Option Alloc
  map : PyDict Obj Item
deriving DecidableEq, Repr

/-- `SparseSource::ObjectBelongs` (sparse_source.h 92-95). -/
def Sparse.belongs (s : Sparse) (o : Obj) : Bool :=
  match s.alloc with
  | some a => o.alloc == a
  | none => o.alloc.isSmall

/-- `SparseSource::Get(ObjectId)` (sparse_source.cc 41-47). -/
def Sparse.get (s : Sparse) (o : Obj) : Cell := s.map.get? o

/-- `SparseSource::Set(ObjectId, DataItem)` (sparse_source.cc 98-102). -/
def Sparse.set (s : Sparse) (o : Obj) (v : Item) : Sparse :=
  if s.belongs o then { s with map := s.map.set o v } else s

/-- `SparseSource::Set(objects, values)` (sparse_source.cc 104-116). -/
def Sparse.setMany (s : Sparse) (ids : List (Option Obj)) (values : Slice) :
    Except Err Sparse :=
  if ids.length ≠ values.cells.length then .error .sizeMismatch
  else .ok ((ids.zip values.cells).foldl (fun s p =>
    match p.1 with
    | some o => s.set o (p.2.getD none)
    | none => s) s)

/-! ### Dense sources -/

/-- The representations of a `DenseSource` (dense_source.cc).
`typed`: `TypedDenseSource<T>` (559-934), `mask = none` for an empty
`values_mask_`.  `multi`: `MultitypeDenseSource` (125-480), also a
`TypedDenseSource` that has been given a `multitype_`.  `ro`:
`ReadOnlyDenseSource` and `TypedReadOnlyDenseSource` (936-1173). -/
inductive Rep where
  | typed (ty : Nat) (vals : List Item) (mask : Option (List Bool))
  | multi (cells : List Cell)
  | ro (data : Slice)
deriving DecidableEq, Repr

structure Dense where
  alloc : Alloc
  rep : Rep
deriving DecidableEq, Repr

/-- `DenseSource::size`. -/
def Rep.size : Rep → Nat
  | .typed _ vals _ => vals.length
  | .multi cells => cells.length
  | .ro data => data.cells.length

/-- `DenseSource::IsMutable`. -/
def Rep.isMutable : Rep → Bool
  | .ro _ => false
  | _ => true

/-- `DenseSource::Get(ObjectId)`: dense_source.cc 628-644 (typed), 150-164
(multitype), 957-966 (read-only, mixed types), 1085-1096 (read-only, one type).
Simplified: an offset outside of the array reads as unset. -/
def Rep.get (r : Rep) (off : Nat) : Cell :=
  match r with
  | .typed _ vals mask =>
    match vals[off]? with
    | none => none
    | some (some v) => some (some v)
    | some none =>
      match mask with
      | none => some none
      | some m => if m.getD off false then some none else none
  | .multi cells => cells[off]?.getD none
  | .ro data =>
    match data.cells[off]? with
    | none => none
    | some (some (some v)) => some (some v)
    | some (some none) => some none
    | some none => if data.tb then none else some none

/-- `DenseSource::Get(ObjectId)` of a source of an allocation. -/
def Dense.get (d : Dense) (o : Obj) : Cell := d.rep.get o.off

/-- What `DenseSource::Get(objects, builder)` inserts for an object:
dense_source.cc 665-694 (typed), 175-210 (multitype), 977-1000 and 1110-1133
(read-only).  Simplified: the loops over the types of a multitype source are one
loop over the objects. -/
def Dense.inserts (d : Dense) (o : Obj) : Cell :=
  if o.alloc ≠ d.alloc then none
  else match d.rep with
    | .typed _ vals mask =>
      match mask with
      | none => some (vals[o.off]?.getD none)
      | some m => if m.getD o.off false then some (vals[o.off]?.getD none) else none
    | .multi cells =>
      match cells[o.off]?.getD none with
      | some none => some none
      | some (some v) => some (some v)
      | none => none
    | .ro data =>
      if data.tb && (data.cells[o.off]?.getD none).isNone then none
      else some (data.item o.off)

/-- `DenseSource::Get(objects, check_alloc_id)`: dense_source.cc 646-663,
166-173, 968-975, 1098-1108.  One array of the values; missing elements of a
typed array are just missing (the result has no `TypesBuffer`). -/
def Dense.getMany (d : Dense) (ids : List (Option Obj)) (checkAlloc : Bool) : Slice :=
  match d.rep with
  | .typed ty vals _ => single ty (fun off => vals[off]?.getD none)
  | .multi _ => build (fill d.inserts ids (mask ids))
  | .ro data =>
    match data.dtype with
    | some ty => single ty (fun off => data.item off)
    | none => build (fill d.inserts ids (mask ids))
where
  single (ty : Nat) (f : Nat → Item) : Slice :=
    let items : List Item := ids.map fun o => match o with
      | none => none
      | some o => if checkAlloc && o.alloc != d.alloc then none else f o.off
    { cells := items.map some
      types := if items.all (·.isNone) then [] else [ty]
      tb := false }

/-- `DenseSource::GetAll`: dense_source.cc 696-722 (typed), 212-238 (multitype),
1046 (read-only).  `CreateWithTypesBuffer` drops the array if it has no present
value (data_slice.h 500-507, 576-593). -/
def Rep.getAll (r : Rep) : Slice :=
  match r with
  | .typed ty vals mask =>
    let types := if vals.all (·.isNone) then [] else [ty]
    match mask with
    | none => { cells := vals.map some, types := types, tb := false }
    | some m =>
      { cells := List.zipWith (fun v b => match v with
          | some x => some (some x)
          | none => if b then some none else none) vals m
        types := types
        tb := true }
  | .multi cells => build cells
  | .ro data => data

/-- `TypedDenseSource::CreateMultitype` (dense_source.cc 886-920): the cells of
the multitype source. -/
def typedCells (vals : List Item) (mask : Option (List Bool)) : List Cell :=
  match mask with
  | none => vals.map some
  | some m => List.zipWith (fun v b => match v with
      | some x => some (some x)
      | none => if b then some none else none) vals m

/-- `DenseSource::Set(ObjectId, DataItem)` at an offset of the allocation:
dense_source.cc 726-750 (typed), 242-268 (multitype), 1004-1007 (read-only). -/
def Rep.set (r : Rep) (off : Nat) (v : Item) : Except Err Rep :=
  match r with
  | .typed ty vals mask =>
    let mask' := mask.map (·.set off true)
    match v with
    | some x =>
      if x.ty = ty then .ok (.typed ty (vals.set off (some x)) mask')
      else .ok (.multi ((typedCells vals mask').set off (some (some x))))
    | none => .ok (.typed ty (vals.set off none) mask')
  | .multi cells => .ok (.multi (cells.set off (some v)))
  | .ro _ => .error .immutable

/-- `DenseSource::Set(ObjectId, DataItem)`. -/
def Dense.set (d : Dense) (o : Obj) (v : Item) : Except Err Dense :=
  if o.alloc ≠ d.alloc then
    if d.rep.isMutable then .ok d else .error .immutable
  else do
    let r ← d.rep.set o.off v
    pure { d with rep := r }

/-- The (offset, element) pairs of a batch write that concern an allocation, in
order: `objects.ForEachPresent` with `obj_allocation_id_.Contains(object)`. -/
def writesTo (a : Alloc) (ids : List (Option Obj)) (cells : List Cell) : List (Nat × Cell) :=
  (ids.zip cells).filterMap fun p =>
    match p.1 with
    | some o => if o.alloc = a then some (o.off, p.2) else none
    | none => none

/-- `MultitypeDenseSource::SetImpl<RemoveMissing=true>`, and the branch for an
empty slice (dense_source.cc 270-283, 421-449): one pass in order. -/
def multiSetSingle (cells : List Cell) (ws : List (Nat × Cell)) : List Cell :=
  ws.foldl (fun cs w => cs.set w.1 (some (w.2.getD none))) cells

/-- `MultitypeDenseSource::Set` for a slice of mixed types (dense_source.cc
290-305): one pass per type, writing the values of that type, then one pass for
the missing elements. -/
def multiSetMixed (cells : List Cell) (types : List Nat) (ws : List (Nat × Cell)) : List Cell :=
  let cells1 := types.foldl (fun cs ty =>
    ws.foldl (fun cs w =>
      match w.2 with
      | some (some v) => if v.ty = ty then cs.set w.1 (some (some v)) else cs
      | _ => cs) cs) cells
  ws.foldl (fun cs w =>
    match w.2 with
    | some (some _) => cs
    | _ => cs.set w.1 (some none)) cells1

/-- `MultitypeDenseSource::Set(objects, values)` (dense_source.cc 270-306). -/
def multiSet (cells : List Cell) (values : Slice) (ws : List (Nat × Cell)) : List Cell :=
  if values.isMixed then multiSetMixed cells values.types ws
  else multiSetSingle cells ws

/-- `TypedDenseSource::Set(objects, values)` for an empty slice or one of the
type of the source (dense_source.cc 767-782, 494-559: `ValueArraySet`,
`ValueArrayUnset`). -/
def typedSet (vals : List Item) (mask : Option (List Bool)) (ws : List (Nat × Cell)) :
    List Item × Option (List Bool) :=
  (ws.foldl (fun vs w => vs.set w.1 (w.2.getD none)) vals,
   mask.map fun m => ws.foldl (fun m w => m.set w.1 true) m)

/-- `DenseSource::Set(objects, values)`: dense_source.cc 752-783 (typed), 270-306
(multitype), 1009-1012 (read-only). -/
def Dense.setMany (d : Dense) (ids : List (Option Obj)) (values : Slice) : Except Err Dense :=
  let ws := writesTo d.alloc ids values.cells
  match d.rep with
  | .ro _ => .error .immutable
  | .multi cells =>
    if ids.length ≠ values.cells.length then .error .sizeMismatch
    else .ok { d with rep := .multi (multiSet cells values ws) }
  | .typed ty vals mask =>
    if ids.length ≠ values.cells.length then .error .sizeMismatch
    else if values.isEmptyAndUnknown || values.dtype == some ty then
      let r := typedSet vals mask ws
      .ok { d with rep := .typed ty r.1 r.2 }
    else .ok { d with rep := .multi (multiSet (typedCells vals mask) values ws) }

/-- `DenseSource::CreateMutableCopy`: dense_source.cc 868-877 (typed), 371-387
(multitype), 1019-1028 (read-only, mixed types), 1135-1150 (read-only, one
type). -/
def Rep.mutableCopy (r : Rep) : Rep :=
  match r with
  | .typed ty vals mask => .typed ty vals mask
  | .multi cells => .multi cells
  | .ro data =>
    match data.dtype with
    | some ty => .typed ty (data.cells.map (·.getD none))
        (if data.tb then some (data.cells.map (·.isSome)) else none)
    | none => .multi data.cells

def Dense.copy (d : Dense) : Dense := { d with rep := d.rep.mutableCopy }

/-- `DenseSource::CreateReadonly` (dense_source.cc 1177-1203).  Simplified: the
error for an empty slice, which the callers exclude, is left out. -/
def createReadonly (a : Alloc) (data : Slice) : Except Err Dense :=
  if a.capacity < data.cells.length then .error .capacity
  else .ok { alloc := a, rep := .ro data }

/-- The scalar type `Unit`. -/
def unitType : Nat := 6

/-- `DenseSource::CreateAllRemoved` (dense_source.cc 1205-1209, 565-571): a
`TypedDenseSource<Unit>` of the whole capacity without a mask. -/
def createAllRemoved (a : Alloc) : Dense :=
  { alloc := a, rep := .typed unitType (List.replicate a.capacity none) none }

/-- `DenseSource::CreateMutable` (dense_source.cc 1211-1230, 573-580, 142-148):
everything unset. -/
def createMutable (a : Alloc) (size : Nat) (ty : Option Nat) : Dense :=
  match ty with
  | none => { alloc := a, rep := .multi (List.replicate size none) }
  | some t =>
    { alloc := a
      rep := .typed t (List.replicate size none) (some (List.replicate size false)) }

/-! ### Conflict policies -/

/-- `MergeOptions::ConflictHandlingOption` (data_bag.h, dense_source.h 95-103). -/
inductive Policy where
  | raise
  | overwrite
  | keep
deriving DecidableEq, Repr

/-- `ReverseConflictHandlingOption` (data_bag.cc 407-419). -/
def Policy.reverse : Policy → Policy
  | .raise => .raise
  | .overwrite => .keep
  | .keep => .overwrite

/-- One offset of `MultitypeDenseSource::MergeImpl` and `MergeArrayImpl`
(dense_source.cc 315-368, 451-489).  `handleRemoved` tells whether the branch
for removed elements is reached. -/
def multiMergeCell (p : Policy) (handleRemoved : Bool) (this other : Cell) : Except Err Cell :=
  match other with
  | none => .ok this
  | some (some v) =>
    match p with
    | .overwrite => .ok (some (some v))
    | .keep =>
      match this with
      | none => .ok (some (some v))
      | some x => .ok (some x)
    | .raise =>
      match this with
      | none => .ok (some (some v))
      | some none => .error .conflict
      | some (some x) =>
        if x.ty ≠ v.ty || valuesDiffer x v then .error .conflict else .ok (some (some x))
  | some none =>
    if handleRemoved then
      match p, this with
      | .overwrite, _ => .ok (some none)
      | _, none => .ok (some none)
      | _, some none => .ok (some none)
      | .raise, some (some _) => .error .conflict
      | .keep, some (some x) => .ok (some (some x))
    else .ok this

/-- Zips with a function that may fail, over the common prefix; the rest of the
first list is kept. -/
def zipM {α β : Type} (f : α → β → Except Err α) : List α → List β → Except Err (List α)
  | a :: as, b :: bs => do
    let x ← f a b
    let xs ← zipM f as bs
    pure (x :: xs)
  | as, _ => .ok as

/-- Neither unset nor removed. -/
def isPresent (c : Cell) : Bool := (c.getD none).isSome

/-- `MultitypeDenseSource::MergeImpl` (dense_source.cc 315-368).  The loops over
the arrays of `values` run over all their elements, so a present value beyond the
end of this source is written out of bounds; so is, if `values` has no
`TypesBuffer`, a missing element (350-359).  If `values` has neither arrays nor a
`TypesBuffer` then `mask` stays empty and no removed element is handled. -/
def multiMerge (cells : List Cell) (values : Slice) (p : Policy) : Except Err (List Cell) :=
  let beyond := values.cells.drop cells.length
  if beyond.any isPresent then .error .outOfBounds
  else if !values.tb && !values.types.isEmpty && !beyond.isEmpty then .error .outOfBounds
  else zipM (multiMergeCell p (values.tb || !values.types.isEmpty)) cells values.cells

/-- One offset of `TypedDenseSource::MergeImpl` for a slice of the same type
(dense_source.cc 828-864). -/
def typedMergeCell (p : Policy) (otherSet : Bool) (this : Item × Bool) (other : Item) :
    Except Err (Item × Bool) :=
  match p with
  | .overwrite => .ok (if otherSet then (other, true) else this)
  | .keep => .ok (if otherSet && !this.2 then (other, true) else this)
  | .raise =>
    if !otherSet then .ok this
    else if !this.2 then .ok (other, true)
    else if optsDiffer this.1 other then .error .conflict
    else .ok this

/-- `DenseSource::MergeImpl`: dense_source.cc 808-866 (typed), 315-368
(multitype), 1048-1051 (read-only). -/
def Rep.mergeImpl (r : Rep) (values : Slice) (p : Policy) : Except Err Rep :=
  match r with
  | .ro _ => .error .immutable
  | .multi cells => (multiMerge cells values p).map .multi
  | .typed ty vals mask =>
    if values.dtype ≠ some ty then (multiMerge (typedCells vals mask) values p).map .multi
    else
      let this := vals.zip (mask.getD (List.replicate vals.length true))
      match zipM (fun t (c : Cell) => typedMergeCell p (!values.tb || c.isSome) t (c.getD none))
          this values.cells with
      | .ok xs => .ok (.typed ty (xs.map (·.1)) (mask.map fun _ => xs.map (·.2)))
      | .error e => .error e

/-- `DenseSource::Merge` (dense_source.h 110-116). -/
def Dense.merge (d other : Dense) (p : Policy) : Except Err Dense :=
  match d.rep.mergeImpl other.rep.getAll p with
  | .ok r => .ok { d with rep := r }
  | .error e => .error e

/-! ### Bags -/

/-- `SourceCollection` (data_bag.h 770-800). -/
structure Coll where
  sparse : Option Sparse
  mutDense : Option Dense
  constDense : Option Dense
  lookupParent : Bool
deriving DecidableEq, Repr

/-- The data of one `DataBagImpl` without its parents (data_bag.h 1030-1074):
`small` is `small_alloc_sources_`, `big` is `sources_`, `rest` tells that there
are lists or dicts.  `id` is the address of the object. -/
structure Layer where
  id : Nat
  small : PyDict Attr Sparse
  big : PyDict (Alloc × Attr) Coll
  rest : Bool
deriving DecidableEq, Repr

/-- A `DataBagImpl` with the chain of its parents (nearest first). -/
structure Bag where
  frozen : Bool
  top : Layer
  parents : List Layer
deriving DecidableEq, Repr

def Bag.layers (b : Bag) : List Layer := b.top :: b.parents

/-- `DataBagImpl::CreateEmptyDatabag` (data_bag.cc 480-482). -/
def emptyBag (id : Nat) : Bag :=
  { frozen := false, top := { id := id, small := [], big := [], rest := false }, parents := [] }

/-- `DataBagImpl::IsPristine` (data_bag.cc 493-496). -/
def Layer.isPristine (l : Layer) : Bool := l.big.isEmpty && l.small.isEmpty && !l.rest

/-- `DataBagImpl::PartiallyPersistentFork` (data_bag.cc 484-489). -/
def Bag.fork (b : Bag) (id : Nat) : Bag :=
  { frozen := false
    top := { id := id, small := [], big := [], rest := false }
    parents := if b.top.isPristine then b.parents else b.layers }

/-! ### Reading -/

/-- `DataBagImpl::LookupAttrInDataItemMap` (data_bag.h 820-834). -/
def lookupSmall (o : Obj) (attr : Attr) : List Layer → Cell
  | [] => none
  | l :: ls =>
    match l.small.get? attr with
    | none => lookupSmall o attr ls
    | some s =>
      match s.get o with
      | some x => some x
      | none => lookupSmall o attr ls

/-- `DataBagImpl::LookupAttrInDataSourcesMap` (data_bag.cc 514-550). -/
def lookupBig (o : Obj) (attr : Attr) : List Layer → Cell
  | [] => none
  | l :: ls =>
    match l.big.get? (o.alloc, attr) with
    | none => lookupBig o attr ls
    | some c =>
      match c.sparse.bind (·.get o) with
      | some x => some x
      | none =>
        match c.mutDense.bind (·.get o) with
        | some x => some x
        | none =>
          match c.constDense.bind (·.get o) with
          | some x => some x
          | none => if c.lookupParent then lookupBig o attr ls else none

/-- One bag of `DataBagImpl::GetAttrWithRemoved(ObjectId)` (data_bag.cc
801-809). -/
def Bag.lookup (b : Bag) (o : Obj) (attr : Attr) : Cell :=
  if o.alloc.isSmall then lookupSmall o attr b.layers else lookupBig o attr b.layers

/-- `DataBagImpl::GetAttrWithRemoved(ObjectId)` (data_bag.cc 786-810): `bags` is
the bag followed by its fallbacks. -/
def getWithRemoved (bags : List Bag) (o : Obj) (attr : Attr) : Cell :=
  match bags with
  | [] => none
  | b :: bs =>
    match b.lookup o attr with
    | some x => some x
    | none => getWithRemoved bs o attr

/-- An item an attribute can be read from or written to. -/
inductive ObjItem where
  | missing
  | primitive
  | object (o : Obj)
deriving DecidableEq, Repr

/-- `DataBagImpl::GetAttr(DataItem)` (data_bag.cc 812-825). -/
def getAttr (bags : List Bag) (o : ObjItem) (attr : Attr) : Except Err Item :=
  match o with
  | .primitive => .error .primitive
  | .missing => .ok none
  | .object o => .ok ((getWithRemoved bags o attr).getD none)

/-- `DataBagImpl::GetSmallAllocDataSources` (data_bag.cc 865-874). -/
def smallSources (attr : Attr) (layers : List Layer) : List Sparse :=
  layers.filterMap (·.small.get? attr)

/-- `DataBagImpl::GetAttributeDataSources` of a big allocation (data_bag.cc
876-916): the size it returns, the dense and the sparse sources. -/
def bigSources (a : Alloc) (attr : Attr) (layers : List Layer) (size : Nat) :
    Nat × List Dense × List Sparse :=
  match layers with
  | [] => (size, [], [])
  | l :: ls =>
    match l.big.get? (a, attr) with
    | none => bigSources a attr ls size
    | some c =>
      let sp := c.sparse.toList
      match c.mutDense with
      | some d => (d.rep.size, [d], sp)
      | none =>
        match c.constDense with
        | some d => (d.rep.size, [d], sp)
        | none =>
          if c.lookupParent then
            let r := bigSources a attr ls size
            (r.1, r.2.1, sp ++ r.2.2)
          else (size, [], sp)

/-- `DataBagImpl::GetAttributeDataSources` (data_bag.cc 876-884). -/
def dataSources (a : Alloc) (attr : Attr) (layers : List Layer) :
    Nat × List Dense × List Sparse :=
  if a.isSmall then (a.capacity, [], smallSources attr layers)
  else bigSources a attr layers a.capacity

/-- `HasTooManyAllocationIds` (data_bag.cc 88-94). -/
def hasTooManyAllocs (allocs objs : Nat) : Bool :=
  5 < allocs && (64 ≤ allocs / 2 || objs < 2 ^ (allocs / 2))

/-- The loops over sources that stop as soon as the builder is finalized
(data_bag.cc 112-123, 667-683). -/
def fillAll (fs : List (Obj → Cell)) (ids : List (Option Obj)) (b : List Cell) : List Cell :=
  fs.foldl (fun b f => if finalized b then b else fill f ids b) b

/-- The state of the loop of `GetAttrImpl` when it leaves a bag. -/
inductive GetState where
  | builder (b : Option (List Cell))   -- go on to the next bag
  | done (s : Slice)                   -- `return`
deriving DecidableEq, Repr

/-- One bag of the loop in `DataBagImpl::GetAttrImpl` (data_bag.cc 622-688).
`last` is `fallbacks.empty()`. -/
def getStep (bag : Bag) (last : Bool) (ids : List (Option Obj)) (allocs : List Alloc)
    (small : Bool) (attr : Attr) (many : Bool) (b : Option (List Cell)) : GetState :=
  let sp := if small then smallSources attr bag.layers else []
  if many then
    let b1 := fillAll (sp.map (·.get)) ids (b.getD (mask ids))
    .builder (some (fill (fun o =>
      if o.alloc.isSmall then none else lookupBig o attr bag.layers) ids b1))
  else
    let srcs := allocs.map fun a => dataSources a attr bag.layers
    let dense := srcs.flatMap (·.2.1)
    let sparse := sp ++ srcs.flatMap (·.2.2)
    if dense.isEmpty && sparse.isEmpty then .builder b
    else
      match b, last, sparse, dense with
      | none, true, [], [d] => .done (d.getMany ids (small || 1 < allocs.length))
      | _, _, _, _ =>
        .builder (some (fillAll (sparse.map (·.get) ++ dense.map (·.inserts)) ids
          (b.getD (mask ids))))

/-- The loop in `DataBagImpl::GetAttrImpl` (data_bag.cc 622-695). -/
def getLoop (bags : List Bag) (ids : List (Option Obj)) (allocs : List Alloc)
    (small : Bool) (attr : Attr) (many : Bool) (b : Option (List Cell)) : Slice :=
  match bags with
  | [] =>
    match b with
    | some cells => build cells
    | none => Slice.allRemoved ids.length
  | bag :: rest =>
    match getStep bag rest.isEmpty ids allocs small attr many b with
    | .done s => s
    | .builder none => getLoop rest ids allocs small attr many none
    | .builder (some cells) =>
      if finalized cells then build cells
      else getLoop rest ids allocs small attr many (some cells)

/-- `DataBagImpl::GetAttrImpl` (data_bag.cc 587-696). -/
def getAttrImpl (bags : List Bag) (objs : Objs) (attr : Attr) (withRemoved : Bool) :
    Except Err Slice :=
  match objs with
  | .emptyAndUnknown n => .ok (Slice.allRemoved n)
  | .primitives _ => .error .primitive
  | .objects ids allocs small =>
    let many := hasTooManyAllocs allocs.length ids.length
    let b := if withRemoved || many then some (mask ids) else none
    .ok (getLoop bags ids allocs small attr many b)

/-- `DataBagImpl::GetAttr(DataSliceImpl)` (data_bag.cc 698-702). -/
def getAttrSlice (bags : List Bag) (objs : Objs) (attr : Attr) : Except Err Slice :=
  getAttrImpl bags objs attr false

/-- `DataBagImpl::GetAttrWithRemoved(DataSliceImpl)` (data_bag.cc 705-709). -/
def getAttrSliceWithRemoved (bags : List Bag) (objs : Objs) (attr : Attr) : Except Err Slice :=
  getAttrImpl bags objs attr true

/-- `IsFullAllocPrefix` (data_bag.cc 713-738): the allocation, if `objects` are
the first objects of it in order. -/
def fullAllocPrefix (objs : Objs) : Option Alloc :=
  match objs with
  | .objects ids [a] false =>
    if ids = (List.range ids.length).map (fun i => some ⟨a, i⟩) then some a else none
  | _ => none

/-- `DataBagImpl::GetMaybeFullAllocAttrWithRemoved` called with
`full_alloc = false` (data_bag.cc 742-784): the slice and the new value of
`full_alloc`. -/
def getMaybeFullAlloc (bags : List Bag) (objs : Objs) (attr : Attr) : Except Err (Slice × Bool) :=
  match fullAllocPrefix objs with
  | none => (getAttrImpl bags objs attr true).map (·, false)
  | some a =>
    let n := match objs with
      | .objects ids _ _ => ids.length
      | _ => 0
    go a n bags [] false
where
  /-- The bag and its fallbacks in turn, with the dense sources found so far. -/
  go (a : Alloc) (n : Nat) (rest : List Bag) (dense : List Dense) (full : Bool) :
      Except Err (Slice × Bool) :=
    match rest with
    | [] =>
      match dense with
      | [] => .ok (build (List.replicate n none), full)
      | d :: _ =>
        let all := d.rep.getAll
        .ok (if all.cells.length = n then all else all.prefixOf n, full)
    | b :: bs =>
      let r := dataSources a attr b.layers
      let full' := full || r.1 == n
      let dense' := dense ++ r.2.1
      if 1 < dense'.length || !r.2.2.isEmpty then
        (getAttrImpl bags objs attr true).map (·, full')
      else go a n bs dense' full'

/-! ### Writing -/

/-- The entries of a sparse source whose objects an earlier one does not have
(the `try_emplace` loop, data_bag.cc 1116-1122). -/
def mergedEntries : List Sparse → PyDict Obj Item
  | [] => []
  | s :: ss => s.map ++ (mergedEntries ss).filter (fun e => (s.map.get? e.1).isNone)

/-- `DataBagImpl::CreateMutableDenseSource` (data_bag.cc 1082-1146).  `parents`
are the layers below the one the collection is in. -/
def createMutableDense (parents : List Layer) (c : Coll) (a : Alloc) (attr : Attr)
    (ty : Option Nat) (size : Nat) : Except Err Coll :=
  let mut0 := c.constDense.map Dense.copy
  if c.constDense.isSome && c.sparse.isNone then
    .ok { c with mutDense := mut0, constDense := none }
  else
    let up := if c.lookupParent then (dataSources a attr parents).2 else ([], [])
    let sparse := c.sparse.toList ++ up.2
    let mut1 := (up.1.head?.map Dense.copy).or mut0
    let base := mut1.getD (createMutable a size ty)
    let es := mergedEntries sparse
    let res := if sparse.isEmpty then .ok base
      else base.setMany (es.map (fun e => some e.1)) (build (es.map (fun e => some e.2)))
    match res with
    | .error e => .error e
    | .ok d => .ok { sparse := none, mutDense := some d, constDense := none, lookupParent := false }

/-- `kSparseSourceSparsityCoef` (data_bag.cc 82). -/
def sparsityCoef : Nat := 64

/-- `DataBagImpl::GetOrCreateMutableSourceInCollection` (data_bag.cc 920-936). -/
def getOrCreateMutable (parents : List Layer) (c : Coll) (a : Alloc) (attr : Attr)
    (ty : Option Nat) (updateSize : Nat) : Except Err Coll :=
  if c.mutDense.isSome then .ok c
  else if updateSize ≤ a.capacity / sparsityCoef then
    .ok { c with sparse := some (c.sparse.getD { alloc := some a, map := [] }) }
  else createMutableDense parents c a attr ty a.capacity

/-- `DataBagImpl::GetOrCreateSourceCollection` (data_bag.cc 1148-1154). -/
def Bag.coll (b : Bag) (a : Alloc) (attr : Attr) : Coll :=
  (b.top.big.get? (a, attr)).getD
    { sparse := none, mutDense := none, constDense := none, lookupParent := !b.parents.isEmpty }

def Bag.setColl (b : Bag) (a : Alloc) (attr : Attr) (c : Coll) : Bag :=
  { b with top := { b.top with big := b.top.big.set (a, attr) c } }

/-- `DataBagImpl::GetMutableSmallAllocSource` (data_bag.cc 552-554). -/
def Bag.smallSource (b : Bag) (attr : Attr) : Sparse :=
  (b.top.small.get? attr).getD { alloc := none, map := [] }

def Bag.setSmall (b : Bag) (attr : Attr) (s : Sparse) : Bag :=
  { b with top := { b.top with small := b.top.small.set attr s } }

/-- The last part of `SetAttr`, once the collection has a mutable source
(data_bag.cc 1246-1253, 1281-1285). -/
def Coll.write (c : Coll) (onDense : Dense → Except Err Dense)
    (onSparse : Sparse → Except Err Sparse) : Except Err Coll :=
  match c.mutDense with
  | some d => do
    let d ← onDense d
    pure { c with mutDense := some d }
  | none =>
    match c.sparse with
    | some s => do
      let s ← onSparse s
      pure { c with sparse := some s }
    | none => .ok c

/-- `DataBagImpl::SetAttr(DataItem)` (data_bag.cc 1258-1286). -/
def setAttr (b : Bag) (o : ObjItem) (attr : Attr) (v : Item) : Except Err Bag :=
  if b.frozen then .error .frozen
  else match o with
    | .primitive => .error .primitive
    | .missing => .ok b
    | .object o =>
      if o.alloc.isSmall then .ok (b.setSmall attr ((b.smallSource attr).set o v))
      else do
        let c ← getOrCreateMutable b.parents (b.coll o.alloc attr) o.alloc attr (v.map (·.ty)) 1
        let c ← c.write (·.set o v) (fun s => .ok (s.set o v))
        pure (b.setColl o.alloc attr c)

/-- The loop over present objects of `SetAttr` when there are many allocations
(data_bag.cc 1229-1238). -/
def setEach (b : Bag) (attr : Attr) (values : Slice) :
    List (Option Obj) → Nat → Except Err Bag
  | [], _ => .ok b
  | none :: ids, i => setEach b attr values ids (i + 1)
  | some o :: ids, i =>
    if o.alloc.isSmall then setEach b attr values ids (i + 1)
    else do
      let b ← setAttr b (.object o) attr (values.item i)
      setEach b attr values ids (i + 1)

/-- The loop over allocations of `SetAttr` (data_bag.cc 1240-1254). -/
def setAllocs (b : Bag) (attr : Attr) (ids : List (Option Obj)) (values : Slice) :
    List Alloc → Except Err Bag
  | [] => .ok b
  | a :: as => do
    let c ← getOrCreateMutable b.parents (b.coll a attr) a attr values.dtype ids.length
    let c ← c.write (·.setMany ids values) (·.setMany ids values)
    setAllocs (b.setColl a attr c) attr ids values as

/-- The part of `SetAttr` about small allocations (data_bag.cc 1223-1227). -/
def setSmallPart (b : Bag) (attr : Attr) (ids : List (Option Obj)) (values : Slice)
    (small : Bool) : Except Err Bag :=
  if small then
    match (b.smallSource attr).setMany ids values with
    | .error e => .error e
    | .ok s => .ok (b.setSmall attr s)
  else .ok b

/-- `DataBagImpl::SetAttr(DataSliceImpl)` (data_bag.cc 1207-1256). -/
def setAttrSlice (b : Bag) (objs : Objs) (attr : Attr) (values : Slice) : Except Err Bag :=
  if b.frozen then .error .frozen
  else match objs with
    | .emptyAndUnknown _ => .ok b
    | .primitives _ => .error .primitive
    | .objects ids allocs small =>
      if allocs.isEmpty && !small then .ok b
      else
        match setSmallPart b attr ids values small with
        | .error e => .error e
        | .ok b =>
          if hasTooManyAllocs allocs.length values.cells.length then setEach b attr values ids 0
          else setAllocs b attr ids values allocs

/-- `DataBagImpl::SetAttrFullAlloc` (data_bag.cc 1156-1205). -/
def setAttrFullAlloc (b : Bag) (a : Alloc) (attr : Attr) (values : Slice) : Except Err Bag :=
  if b.frozen then .error .frozen
  else if values.isEmptyAndUnknown then .ok b
  else
    let useNew :=
      if a.isSmall then false
      else if !values.tb then true
      else b.layers.all fun l => (l.big.get? (a, attr)).isNone
    if useNew then do
      let d ← createReadonly a values
      pure (b.setColl a attr
        { sparse := none, mutDense := none, constDense := some d, lookupParent := false })
    else
      let ids : List (Option Obj) := values.cells.mapIdx fun i c =>
        if values.tb && c.isNone then none else some ⟨a, i⟩
      setAttrSlice b (.objects ids (if a.isSmall then [] else [a]) a.isSmall) attr values

/-- The assignment `objects.attr = values` after the casts and schema checks:
`SetAttrImpl` (/repo/koladata/data_slice.cc 1739-1749).  `full` is the
allocation of a slice that was made of all objects of one allocation
(`GetFullAllocOrNone`). -/
def assignAttr (b : Bag) (objs : Objs) (full : Option Alloc) (attr : Attr) (values : Slice) :
    Except Err Bag :=
  match full with
  | some a =>
    if !a.isSmall then setAttrFullAlloc b a attr values.unsetToRemoved
    else setAttrSlice b objs attr values
  | none => setAttrSlice b objs attr values

/-- The objects of an allocation as a slice (`ObjectsFromAllocation`,
data_slice.cc). -/
def allObjects (a : Alloc) (n : Nat) : Objs :=
  .objects ((List.range n).map fun i => some ⟨a, i⟩) (if a.isSmall then [] else [a]) a.isSmall

/-- `DataBagImpl::CreateObjectsFromFields(slices)` (data_bag.cc 1027-1067).  `a`
is the allocation `Allocate(ds_size)` returns. -/
def createObjects (b : Bag) (a : Alloc) (fields : List (Attr × Slice)) : Except Err (Bag × Objs) :=
  if b.frozen then .error .frozen
  else match fields with
    | [] => .ok (b, .emptyAndUnknown 0)
    | (_, s0) :: _ =>
      if fields.any (fun f => f.2.cells.length != s0.cells.length) then .error .sizeMismatch
      else if s0.cells.length = 0 then .ok (b, .emptyAndUnknown 0)
      else
        let objs := allObjects a s0.cells.length
        match if a.isSmall then setFields objs fields b else emplaceFields fields b with
        | .error e => .error e
        | .ok b => .ok (b, objs)
where
  setFields (objs : Objs) : List (Attr × Slice) → Bag → Except Err Bag
    | [], b => .ok b
    | f :: fs, b => do
      let b ← setAttrSlice b objs f.1 f.2
      setFields objs fs b
  emplaceFields : List (Attr × Slice) → Bag → Except Err Bag
    | [], b => .ok b
    | f :: fs, b =>
      match if f.2.isEmptyAndUnknown then .ok (createAllRemoved a) else createReadonly a f.2 with
      | .error e => .error e
      | .ok d =>
        emplaceFields fs (if (b.top.big.get? (a, f.1)).isSome then b
          else b.setColl a f.1
            { sparse := none, mutDense := none, constDense := some d, lookupParent := false })

/-- `DataBagImpl::CreateObjectsFromFields(items)` (data_bag.cc 1069-1080).  `o` is
the object `AllocateSingleObject` returns. -/
def createObject (b : Bag) (o : Obj) (fields : List (Attr × Item)) : Except Err Bag :=
  if b.frozen then .error .frozen
  else .ok (fields.foldl (fun b f => b.setSmall f.1 ((b.smallSource f.1).set o f.2)) b)

/-! ### Merging -/

/-- The loops over all entries of sparse sources that skip the objects an earlier
source has (`ProcessSparseSources`, data_bag.cc 234-262): the entries that are
processed, in order. -/
def sparseEntries (sources : List Sparse) : List (Obj × Item) :=
  go [] sources
where
  go (seen : List Sparse) : List Sparse → List (Obj × Item)
    | [] => []
    | s :: ss =>
      s.map.filter (fun e => seen.all (fun s' => (s'.get e.1).isNone)) ++ go (s :: seen) ss

/-- One entry of `MergeToMutableDenseSourceOnlySparse`,
`MergeToMutableSparseSourceOnlySparse` and the last loop of
`MergeToMutableDenseSource` (data_bag.cc 282-303, 314-336, 388-403): `get` and
`set` are those of the destination. -/
def mergeEntry {σ : Type} (p : Policy) (get : σ → Obj → Cell)
    (set : σ → Obj → Item → Except Err σ) (d : σ) (o : Obj) (v : Item) : Except Err σ :=
  match p with
  | .overwrite => set d o v
  | p =>
    match get d o with
    | none => set d o v
    | some x => if p == .raise && itemsDiffer x v then .error .conflict else .ok d

def mergeEntries {σ : Type} (p : Policy) (get : σ → Obj → Cell)
    (set : σ → Obj → Item → Except Err σ) (d : σ) : List (Obj × Item) → Except Err σ
  | [] => .ok d
  | e :: es => do
    let d ← mergeEntry p get set d e.1 e.2
    mergeEntries p get set d es

/-- `MergeToMutableDenseSourceOnlySparse` (data_bag.cc 275-306). -/
def mergeSparseIntoDense (d : Dense) (sources : List Sparse) (p : Policy) : Except Err Dense :=
  mergeEntries p Dense.get Dense.set d (sparseEntries sources)

/-- `MergeToMutableSparseSourceOnlySparse` (data_bag.cc 308-339). -/
def mergeSparseIntoSparse (s : Sparse) (sources : List Sparse) (p : Policy) : Except Err Sparse :=
  mergeEntries p Sparse.get (fun s o v => .ok (s.set o v)) s (sparseEntries sources)

/-- `MergeToMutableSparseSource` (data_bag.cc 205-220). -/
def mergeToSparse (sources : List Sparse) : Option Sparse :=
  match sources.reverse with
  | [] => none
  | last :: others =>
    some (others.foldl (fun r s => s.map.foldl (fun r e => r.set e.1 e.2) r) last)

/-- `MergeToMutableDenseSource` (data_bag.cc 341-405). -/
def mergeDenseIntoDense (d : Dense) (a : Alloc) (other : Dense) (sparse : List Sparse)
    (p : Policy) : Except Err Dense :=
  match sparse with
  | [] => d.merge other p
  | _ =>
    let size := min d.rep.size other.rep.size
    let ids : List (Option Obj) := (List.range size).map fun i => some ⟨a, i⟩
    let items := build (fillAll (sparse.map (·.get) ++ [other.inserts]) ids (mask ids))
    match p with
    | .overwrite =>
      d.setMany ((ids.zip items.cells).map fun e => if e.2.isSome then e.1 else none) items
    | p =>
      mergeEntries p Dense.get Dense.set d
        ((List.range size).filterMap fun i =>
          items.cells[i]?.join.map fun v => ((⟨a, i⟩ : Obj), v))

/-- The bag of `GetNonPristineBag` (data_bag.cc 505-511), by its address. -/
def Bag.nonPristine (b : Bag) : Option Nat :=
  if b.top.isPristine then b.parents.head?.map (·.id) else some b.top.id

/-- The layers a merge looks at: those of the other bag, up to the first one that
this bag is based on (data_bag.cc 3381-3384, 3494-3497). -/
def newLayers (stop : Option Nat) (layers : List Layer) : List Layer :=
  layers.takeWhile fun l => stop != some l.id

/-- A collection with its mutable dense source made the const one (data_bag.cc
3526-3532, 3581-3586). -/
def Coll.asConst (c : Coll) : Coll :=
  if c.mutDense.isSome then { c with constDense := c.mutDense, mutDense := none } else c

/-- The body of the loop of `MergeBigAllocImpl` for one key (data_bag.cc
3505-3603), after the test for equal sources.  `other` are the layers of the other
bag, starting with the first one that has the key; `c` is `this_collection`. -/
def mergeBigKey (otherFrozen : Bool) (this thisParents other : List Layer) (a : Alloc) (attr : Attr)
    (p : Policy) (c : Coll) : Except Err Coll :=
  let o := dataSources a attr other
  let t := dataSources a attr this
  -- `other_source_collection_copy`, its mutable dense source made the const one
  let oc := Coll.asConst ((other.head?.bind (·.big.get? (a, attr))).getD
    { sparse := none, mutDense := none, constDense := none, lookupParent := false })
  match t.2.1, o.2.1 with
  | [], [] =>
    match t.2.2 with
    | [] => .ok { c with sparse := mergeToSparse o.2.2, lookupParent := false }
    | _ =>
      match mergeToSparse t.2.2 with
      | none => .ok c
      | some s =>
        match mergeSparseIntoSparse s o.2.2 p with
        | .error e => .error e
        | .ok s => .ok { c with sparse := some s, lookupParent := false }
  | [], od :: _ =>
    match t.2.2 with
    | [] =>
      if !o.2.2.isEmpty || (oc.constDense.any (·.rep.isMutable) && !otherFrozen) then
        createMutableDense other.tail oc a attr none a.capacity
      else .ok oc
    | _ =>
      match createMutableDense other.tail oc a attr none od.rep.size with
      | .error e => .error e
      | .ok oc =>
        match oc.mutDense with
        | none => .ok oc
        | some d =>
          match mergeSparseIntoDense d t.2.2 p.reverse with
          | .error e => .error e
          | .ok d => .ok { oc with mutDense := some d }
  | td :: _, od =>
    let c' := if c.mutDense.isNone then createMutableDense thisParents c a attr none td.rep.size
      else .ok c
    match c' with
    | .error e => .error e
    | .ok c =>
      match c.mutDense with
      | none => .ok c
      | some d =>
        let d' := match od with
          | [] => mergeSparseIntoDense d o.2.2 p
          | od :: _ => mergeDenseIntoDense d a od o.2.2 p
        match d' with
        | .error e => .error e
        | .ok d => .ok { c with mutDense := some d }

/-- Whether two lists of sources are the same objects (`this_dense_sources ==
other_dense_sources && ...`, data_bag.cc 3515-3518, 3394).  Pointers are not
modelled: this is a parameter that may only say yes for equal sources. -/
abbrev SameSources := List Dense × List Sparse → List Dense × List Sparse → Bool

/-- The loop of `MergeBigAllocImpl` (data_bag.cc 3489-3606) over the layers of the
other bag and their keys; `used` is `used_keys`, `visit` processes one key given
the layers of the other bag from the one that has the key. -/
def forBigKeys {σ : Type}
    (visit : σ → List Layer → Alloc × Attr → Except Err σ) :
    Nat → List Layer → List (Alloc × Attr) → σ → Except Err σ
  | 0, _, _, s => .ok s
  | _ + 1, [], _, s => .ok s
  | n + 1, l :: ls, used, s => do
    let s ← goKeys (l :: ls) used l.big.keys s
    forBigKeys visit n ls (used ++ l.big.keys) s
where
  goKeys (ls : List Layer) (used : List (Alloc × Attr)) :
      List (Alloc × Attr) → σ → Except Err σ
    | [], s => .ok s
    | k :: ks, s =>
      if k ∈ used then goKeys ls used ks s
      else do
        let s ← visit s ls k
        goKeys ls used ks s

/-- `MergeBigAllocInplace` (data_bag.cc 3608-3616, 3489-3606). -/
def mergeBig (same : SameSources) (b other : Bag) (p : Policy) : Except Err Bag :=
  forBigKeys (fun (b : Bag) ls k =>
      if same (dataSources k.1 k.2 b.layers).2 (dataSources k.1 k.2 ls).2 then .ok b
      else do
        let c ← mergeBigKey other.frozen b.layers b.parents ls k.1 k.2 p (b.coll k.1 k.2)
        pure (b.setColl k.1 k.2 c))
    (newLayers b.nonPristine other.layers).length other.layers [] b

/-- `StripIfFirstArrayIsSuffix` (data_bag.cc 222-232): sources are compared by the
layers they are in. -/
def stripSuffix (a b : List (Nat × Sparse)) : List (Nat × Sparse) × List (Nat × Sparse) :=
  if b.length < a.length then (a, b)
  else if a.map (·.1) = (b.drop (b.length - a.length)).map (·.1) then
    ([], b.take (b.length - a.length))
  else (a, b)

/-- `GetSmallAllocDataSources`, with the address of each source: the layer it is
in. -/
def smallPointers (attr : Attr) (layers : List Layer) : List (Nat × Sparse) :=
  layers.filterMap fun l => (l.small.get? attr).map (l.id, ·)

/-- `IterateOverSmallAllocWithNewData` (data_bag.cc 3373-3402): `visit` gets the
attribute, the sources of this bag and those of the other one. -/
def forSmallAttrs {σ : Type} (this : σ → List Layer)
    (visit : σ → Attr → List (Nat × Sparse) → List (Nat × Sparse) → Except Err σ)
    (other : List Layer) : List Layer → List Layer → σ → Except Err σ
  | [], _, s => .ok s
  | l :: ls, above, s => do
    let s ← goAttrs above l.small.keys s
    forSmallAttrs this visit other ls (above ++ [l]) s
where
  goAttrs (above : List Layer) : List Attr → σ → Except Err σ
    | [], s => .ok s
    | a :: as, s =>
      if above.any (fun l => (l.small.get? a).isSome) then goAttrs above as s
      else
        let o := smallPointers a other
        let t := smallPointers a (this s)
        if t.map (·.1) = o.map (·.1) then goAttrs above as s
        else do
          let s ← visit s a t o
          goAttrs above as s

/-- `emplace` into `small_alloc_sources_`: keeps an existing source. -/
def Bag.emplaceSmall (b : Bag) (attr : Attr) (s : Sparse) : Bag :=
  if (b.top.small.get? attr).isSome then b else b.setSmall attr s

/-- `this_sources.empty() && other_sources.size() == 1` (data_bag.cc 3413, 3470):
there is one source, which can be taken as it is. -/
def onlySource : List (Nat × Sparse) → List (Nat × Sparse) → Option Sparse
  | [], [s] => some s.2
  | _, _ => none

/-- `MergeSmallAllocInplace` (data_bag.cc 3404-3456). -/
def mergeSmall (b other : Bag) (p : Policy) : Except Err Bag :=
  forSmallAttrs Bag.layers (fun (b : Bag) attr t o =>
      let r := if p = .overwrite then stripSuffix t o else (t, o)
      match onlySource r.1 r.2 with
      | some s => .ok (b.emplaceSmall attr s)
      | none => mergeSmallEntries p (r.1.map (·.2)) attr (sparseEntries (r.2.map (·.2))) b)
    other.layers (newLayers b.nonPristine other.layers) [] b
where
  /-- `process_other_source` over all entries (data_bag.cc 3419-3450). -/
  mergeSmallEntries (p : Policy) (t : List Sparse) (attr : Attr) :
      List (Obj × Item) → Bag → Except Err Bag
    | [], b => .ok b
    | e :: es, b =>
      let cur := if p = .overwrite then none else t.findSome? (·.get e.1)
      match cur with
      | some x =>
        if p == .raise && itemsDiffer x e.2 then .error .conflict
        else mergeSmallEntries p t attr es b
      | none =>
        mergeSmallEntries p t attr es (b.setSmall attr ((b.smallSource attr).set e.1 e.2))

/-- `IsUnmodifiedForkOf` (data_bag.cc 3832-3837); a bag is given by its address,
`none` is a null pointer. -/
def Bag.isUnmodifiedForkOf (b : Bag) (other : Option Nat) : Bool :=
  b.parents.head?.map (·.id) == other && b.top.isPristine

/-- `IsSubsetOf` (data_bag.cc 3839-3848). -/
def Bag.isSubsetOf (b other : Bag) : Bool :=
  if b.top.id = other.top.id then true
  else if !b.top.isPristine then other.isUnmodifiedForkOf (some b.top.id)
  else b.parents.head?.map (·.id) == some other.top.id
    || other.isUnmodifiedForkOf (b.parents.head?.map (·.id))

/-- `DataBagImpl::MergeInplace` (data_bag.cc 3850-3867), the part about
attributes. -/
def mergeInplace (same : SameSources) (b other : Bag) (p : Policy) : Except Err Bag :=
  if b.frozen then .error .frozen
  else if other.isSubsetOf b then .ok b
  else do
    let b ← mergeBig same b other p
    mergeSmall b other p

/-- `AddBigAllocOverwritingUpdate` (data_bag.cc 3618-3641); `b` is the fork. -/
def updateBig (same : SameSources) (b other update : Bag) : Except Err Bag :=
  forBigKeys (fun (u : Bag) ls k =>
      if same (dataSources k.1 k.2 b.layers).2 (dataSources k.1 k.2 ls).2 then .ok u
      else do
        let c ← mergeBigKey other.frozen b.layers b.parents ls k.1 k.2 .overwrite
          { sparse := none, mutDense := none, constDense := none, lookupParent := true }
        pure (u.setColl k.1 k.2 c))
    (newLayers b.nonPristine other.layers).length other.layers [] update

/-- `AddSmallAllocOverwritingUpdate` (data_bag.cc 3458-3487); `b` is the fork. -/
def updateSmall (b other update : Bag) : Except Err Bag :=
  forSmallAttrs (fun _ => b.layers) (fun (u : Bag) attr t o =>
      let r := stripSuffix t o
      match onlySource r.1 r.2 with
      | some s => .ok (u.emplaceSmall attr s)
      | none => .ok ((sparseEntries (r.2.map (·.2))).foldl (fun u e =>
          u.setSmall attr ((u.smallSource attr).set e.1 e.2)) u))
    other.layers (newLayers b.nonPristine other.layers) [] update

/-- `DataBagImpl::CreateOverwritingMergeUpdate` (data_bag.cc 3869-3889), the part
about attributes; `forkId` and `updateId` are the addresses of the new bags. -/
def createUpdate (same : SameSources) (b other : Bag) (forkId updateId : Nat) : Except Err Bag :=
  if other.isSubsetOf b then .ok (emptyBag updateId)
  else do
    let fork := b.fork forkId
    let u ← updateBig same fork other (emptyBag updateId)
    updateSmall fork other u

end Verif.BagAttr
