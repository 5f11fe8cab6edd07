/-!
Model of `SliceBuilder` (koladata/internal/slice_builder.{h,cc}): building a slice of values of mixed
types, value by value or in batches.

`T` are the ids of types and `V` the values of all types. Not modelled: the set of allocation ids, the
width of `uint8_t` (there are fewer than 254 types).
-/

namespace Verif.SliceBuilder

variable {T V : Type} [DecidableEq T]

/-- An element of `id_to_typeidx`: `kUnset`, `kRemoved` or an index (types_buffer.h:35-44). -/
inductive Code where
  | unset
  | removed
  | ty (i : Nat)
  deriving DecidableEq, Repr

/-- The data of `TypedStorage`: a buffer that was passed to the builder, or a builder of a buffer, where
elements that were not set are unspecified (slice_builder.h:175). -/
inductive Data (V : Type) where
  | buffer (vs : List V)
  | builder (cells : List (Option V))

/-- `TypedStorage` (slice_builder.h:172-186). -/
structure Stor (V : Type) where
  index : Nat
  data : Data V

/-- `storage_state_` (slice_builder.h:270-274). -/
inductive Phase where
  | empty
  | first
  | map
  deriving DecidableEq

/-- The members of `SliceBuilder` (slice_builder.h:263-299). `none` in storages is `std::monostate`,
`cur` is `current_type_id_` (`none` for the type of missing values). `current_storage_` is a function of
these (`current`). The hash map is a list in the order of insertion. -/
structure Bldr (T V : Type) where
  codes : List Code
  unset : Nat
  types : List T := []
  first : Option (Stor V) := none
  store : List (T × Option (Stor V)) := []
  phase : Phase := .empty
  cur : Option T := none

/-- The constructor (slice_builder.cc:42-47). -/
def new (size : Nat) : Bldr T V := { codes := List.replicate size .unset, unset := size }

/-- `IsSet` (slice_builder.h:72-75). -/
def isSet (b : Bldr T V) (id : Nat) : Bool := b.codes[id]? != some .unset

/-- `is_finalized` (slice_builder.h:69). -/
def isFinalized (b : Bldr T V) : Bool := b.unset == 0

/-- Assignment in a map (slice_builder.cc:160, 163). -/
def put {X : Type} (t : T) (x : X) : List (T × X) → List (T × X)
  | [] => [(t, x)]
  | (t', y) :: rest => if t' = t then (t', x) :: rest else (t', y) :: put t x rest

/-- `storage_[type_id]` creates an empty storage if there is none (slice_builder.cc:163). -/
def ensure {X : Type} (t : T) (x : X) (l : List (T × X)) : List (T × X) :=
  match l.lookup t with
  | some _ => l
  | none => put t x l

/-- `*current_storage_` (slice_builder.h:276-277). -/
def current (b : Bldr T V) : Option (Stor V) :=
  match b.phase with
  | .map =>
    match b.cur with
    | some t => (b.store.lookup t).join
    | none => none
  | _ => b.first

/-- `*current_storage_ = s` (slice_builder.h:348, 467). -/
def setCurrent (b : Bldr T V) (s : Stor V) : Bldr T V :=
  match b.phase with
  | .map =>
    match b.cur with
    | some t => { b with store := put t (some s) b.store }
    | none => b
  | _ => { b with first := some s }

/-- `storage_.emplace(current_type_id_, std::move(first_storage_))` (slice_builder.cc:160, 171). -/
def moveFirst (b : Bldr T V) : List (T × Option (Stor V)) :=
  match b.cur with
  | some t => ensure t b.first b.store
  | none => b.store

/-- `ChangeCurrentType` (slice_builder.cc:151-165). -/
def changeCurrent (b : Bldr T V) (t : T) : Bldr T V :=
  match b.phase with
  | .empty => { b with phase := .first, cur := some t }
  | .first =>
    { b with store := ensure t none (moveFirst b), first := none, phase := .map, cur := some t }
  | .map => { b with store := ensure t none b.store, cur := some t }

/-- `UnsetCurrentType` (slice_builder.cc:167-176). -/
def unsetCurrent (b : Bldr T V) : Bldr T V :=
  match b.phase with
  | .first => { b with store := moveFirst b, first := none, phase := .map, cur := none }
  | _ => { b with phase := .map, cur := none }

/-- `GetBufferBuilderFromCurrentStorage` (slice_builder.h:315-334): a buffer is copied to a builder, as
far as its elements are used. -/
def fromCurrent (b : Bldr T V) (s : Stor V) : Bldr T V :=
  match s.data with
  | .builder _ => b
  | .buffer vs =>
    setCurrent b { s with
      data := .builder ((List.range b.codes.length).map fun i =>
        if b.codes[i]? = some (.ty s.index) then vs[i]? else none) }

/-- `GetBufferBuilder` and `GetBufferBuilderWithTypeChange` (slice_builder.h:304-313, 336-357). `none` if a pointer
is null. -/
def getBuilder (b : Bldr T V) (t : T) : Option (Bldr T V) :=
  if b.cur = some t then
    match current b with
    | some ⟨_, .builder _⟩ => some b
    | _ => none
  else
    match current (changeCurrent b t) with
    | none =>
      some (setCurrent { changeCurrent b t with types := b.types ++ [t] }
        ⟨b.types.length, .builder (List.replicate b.codes.length none)⟩)
    | some s => some (fromCurrent (changeCurrent b t) s)

/-- `InsertGuaranteedNotSet` (slice_builder.h:359-381, slice_builder.cc:178-181). -/
def insertOne (tyOf : V → T) (b : Bldr T V) (id : Nat) : Option V → Option (Bldr T V)
  | none => some { b with unset := b.unset - 1, codes := b.codes.set id .removed }
  | some v =>
    match getBuilder b (tyOf v) with
    | none => none
    | some b' =>
      match current b' with
      | some ⟨i, .builder cells⟩ =>
        some { setCurrent b' ⟨i, .builder (cells.set id (some v))⟩ with
          unset := b.unset - 1, codes := b.codes.set id (.ty i) }
      | _ => none

/-- `InsertIfNotSet` (slice_builder.h:383-390, slice_builder.cc:183-188). -/
def insertIfNotSet (tyOf : V → T) (b : Bldr T V) (id : Nat) (v : Option V) : Option (Bldr T V) :=
  if isSet b id then some b else insertOne tyOf b id v

/-- `TypedBuilder::InsertGuaranteedNotSet` (slice_builder.h:392-421), with `typeidx_`. The builder `bldr_` is
that of the current storage: the view is only used until the next other call. -/
def typedOne (i : Nat) (b : Bldr T V) (id : Nat) : Option V → Option (Bldr T V)
  | none => some { b with unset := b.unset - 1, codes := b.codes.set id .removed }
  | some v =>
    match current b with
    | some ⟨k, .builder cells⟩ =>
      some { setCurrent b ⟨k, .builder (cells.set id (some v))⟩ with
        unset := b.unset - 1, codes := b.codes.set id (.ty i) }
    | _ => none

/-- `TypedBuilder::InsertIfNotSet` (slice_builder.h:423-431). -/
def typedIfNotSet (i : Nat) (b : Bldr T V) (id : Nat) (v : Option V) : Option (Bldr T V) :=
  if isSet b id then some b else typedOne i b id v

/-- Calls of `TypedBuilder::InsertIfNotSet` (slice_builder.h:423-431). -/
def typedAll (i : Nat) : List (Nat × Option V) → Bldr T V → Option (Bldr T V)
  | [], b => some b
  | (id, v) :: rest, b =>
    match typedIfNotSet i b id v with
    | none => none
    | some b' => typedAll i rest b'

/-- `typed` (slice_builder.h:144-162), and calls of the view. -/
def typed (b : Bldr T V) (t : T) (items : List (Nat × Option V)) : Option (Bldr T V) :=
  match getBuilder b t with
  | none => none
  | some b' =>
    match current b' with
    | none => none
    | some s => typedAll s.index items b'

/-- `ApplyMask` (slice_builder.h:83-90), for one element. -/
def maskCode (c : Code) (m : Bool) : Code := if !m && c = .unset then .removed else c

/-- `ApplyMask` (slice_builder.h:83-90). -/
def applyMask (b : Bldr T V) (mask : List Bool) : Bldr T V :=
  { b with
    codes := List.zipWith maskCode b.codes mask,
    unset := b.unset - (b.codes.zip mask).countP (fun p => !p.2 && p.1 = .unset) }

/-- `UpdateTypesBuffer` (slice_builder.h:433-453), for one element with its mask and presence. -/
def newCode (index : Nat) (c : Code) (m : Bool × Bool) : Code :=
  if m.1 && c = .unset then (if m.2 then .ty index else .removed) else c

/-- `UpdateTypesBuffer` (slice_builder.h:433-453). -/
def updateTypes (b : Bldr T V) (index : Nat) (mask : List (Bool × Bool)) : Bldr T V :=
  { b with
    codes := List.zipWith (newCode index) b.codes mask,
    unset := b.unset - (b.codes.zip mask).countP (fun p => p.2.1 && p.1 = .unset) }

/-- The elements that `bldr.Set` of a batch changes (slice_builder.h:486). -/
def batchCells (codes : List Code) (mask : List (Bool × Bool)) (values : List V)
    (cells : List (Option V)) : List (Option V) :=
  (List.range codes.length).map fun i =>
    if (mask[i]? = some (true, true)) && codes[i]? = some .unset then values[i]? else (cells[i]?).join

/-- The end of the batch `InsertIfNotSet`, with a builder (slice_builder.h:481-487). -/
def batchInto (b : Bldr T V) (mask : List (Bool × Bool)) (values : List V) : Option (Bldr T V) :=
  match current b with
  | none => none
  | some s =>
    match current (fromCurrent b s) with
    | some ⟨i, .builder cells⟩ =>
      some (updateTypes
        (setCurrent (fromCurrent b s) ⟨i, .builder (batchCells b.codes mask values cells)⟩) i mask)
    | _ => none

/-- The batch `InsertIfNotSet` (slice_builder.h:455-487). -/
def insertBatch (b : Bldr T V) (t : T) (mask : List (Bool × Bool)) (values : List V) :
    Option (Bldr T V) :=
  if b.cur = some t then batchInto b mask values
  else
    match current (changeCurrent b t) with
    | none =>
      some (unsetCurrent (updateTypes
        (setCurrent { changeCurrent b t with types := b.types ++ [t] } ⟨b.types.length, .buffer values⟩)
        b.types.length mask))
    | some _ => batchInto (changeCurrent b t) mask values

/-- A `DataSliceImpl` (data_slice.h): arrays of values for types, codes and the type of all values. -/
structure Slice (T V : Type) where
  values : List (T × List (Option V))
  codes : List Code
  dtype : Option T

/-- An element of the data (slice_builder.h:177-185). -/
def Data.get : Data V → Nat → Option V
  | .buffer vs, j => vs[j]?
  | .builder cells, j => (cells[j]?).join

/-- The array of a storage, with the bitmap (slice_builder.cc:61-68). -/
def array (codes : List Code) (s : Stor V) : List (Option V) :=
  (List.range codes.length).map fun j =>
    if codes[j]? = some (.ty s.index) then s.data.get j else none

/-- `BuildDataSliceVariant` (slice_builder.cc:49-72): `none` if there are no values. -/
def variant (codes : List Code) (t : T) : Option (Stor V) → Option (T × List (Option V))
  | none => none
  | some s => if codes.any (· = .ty s.index) then some (t, array codes s) else none

/-- The first loop of `RemoveEmptyTypes` (slice_builder.cc:77-87). -/
def newIndex {X : Type} : List (Option X) → Nat → List (Option Nat)
  | [], _ => []
  | none :: rest, n => none :: newIndex rest n
  | some _ :: rest, n => some n :: newIndex rest (n + 1)

/-- The second loop of `RemoveEmptyTypes` (slice_builder.cc:88-93; the third loop moves the arrays, 94-101). -/
def remap (idx : List (Option Nat)) : Code → Code
  | .ty i =>
    match (idx[i]?).join with
    | some k => .ty k
    | none => .unset
  | c => c

/-- `Build` (slice_builder.cc:104-149). The map is read in the order of insertion, which is that of the
indexes (in the code the order does not matter: each array is put at its index). -/
def build (b : Bldr T V) : Slice T V :=
  match b.phase with
  | .empty => { values := [], codes := b.codes, dtype := none }
  | .first =>
    match b.cur with
    | none => { values := [], codes := b.codes, dtype := none }
    | some t =>
      match variant b.codes t b.first with
      | none => { values := [], codes := b.codes, dtype := none }
      | some a => { values := [a], codes := b.codes, dtype := b.types[0]? }
  | .map =>
    let arrays := b.store.map fun p => variant b.codes p.1 p.2
    let values := arrays.filterMap id
    { values := values,
      codes := if arrays.all Option.isSome then b.codes else b.codes.map (remap (newIndex arrays 0)),
      dtype := if values.length = 1 then values.getLast?.map Prod.fst else none }

/-- `DataSliceImpl::operator[]` (data_slice.cc:349-378). With several arrays the code does not look at the
bitmap of the array, which has the element (`C97_codes`). -/
def read (s : Slice T V) (j : Nat) : Option V :=
  match s.values with
  | [] => none
  | [a] => (a.2[j]?).join
  | values =>
    match s.codes[j]? with
    | some (.ty i) =>
      match values[i]? with
      | some a => (a.2[j]?).join
      | none => none
    | _ => none

/-- The calls of a user of the builder (slice_builder.h:83-162). -/
inductive Op (T V : Type) where
  | one (id : Nat) (v : Option V)
  | mask (m : List Bool)
  | batch (t : T) (mask : List (Bool × Bool)) (values : List V)
  | typed (t : T) (items : List (Nat × Option V))

/-- A call (slice_builder.h:83-162). -/
def apply (tyOf : V → T) (b : Bldr T V) : Op T V → Option (Bldr T V)
  | .one id v => insertIfNotSet tyOf b id v
  | .mask m => some (applyMask b m)
  | .batch t m vs => insertBatch b t m vs
  | .typed t items => typed b t items

/-- Calls in order (slice_builder.h:83-162). -/
def applyAll (tyOf : V → T) : List (Op T V) → Bldr T V → Option (Bldr T V)
  | [], b => some b
  | op :: ops, b =>
    match apply tyOf b op with
    | none => none
    | some b' => applyAll tyOf ops b'

end Verif.SliceBuilder
