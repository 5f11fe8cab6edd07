/-!
Model of `koladata/internal/data_list.h` and `koladata/internal/data_list.cc`:
`DataList`, the mutable list of values behind a Koda list.

The supported scalar types are the members of a type `Ty`, the values of the scalar type `t`
are the members of `Val t`. Positions are natural numbers: the `DCHECK`s of the code are
hypotheses of the theorems.
-/

namespace Verif.DataList

/-- `DataItem` (data_item.h:60-470): missing, or a value with its type. -/
inductive DataItem {Ty : Type} (Val : Ty → Type) where
  | missing
  | val (t : Ty) (v : Val t)

/-- `arolla::DenseArray<T>`: values and a presence bitmap; an empty bitmap means that all are
present (used at data_list.h:64-81, 137-154). Simplification: the bitmap is a list of bits. -/
structure DenseArray (T : Type) where
  values : List T
  bitmap : List Bool

variable {Ty : Type} [DecidableEq Ty] {Val : Ty → Type}

/-- `DenseArray::operator[]`: the optional value at a position. -/
def DenseArray.get {T : Type} (a : DenseArray T) (i : Nat) : Option T :=
  if a.bitmap.isEmpty || a.bitmap.getD i false then a.values[i]? else none

/-- The variant `data_` (data_list.h:245-259). -/
inductive Data {Ty : Type} (Val : Ty → Type) where
  | allMissing
  | typed (t : Ty) (vec : List (Option (Val t)))
  | items (vec : List (DataItem Val))

/-- `DataList` (data_list.h:51-260). -/
structure DataList {Ty : Type} (Val : Ty → Type) where
  size : Nat
  data : Data Val

/-- The constructor `DataItem(std::optional<T>)` (data_item.h:108-116). -/
def DataItem.ofOpt {t : Ty} : Option (Val t) → DataItem Val
  | none => .missing
  | some v => .val t v

/-- `DataList()` (data_list.h:53, 243-246). -/
def DataList.empty : DataList Val := ⟨0, .allMissing⟩

/-- `DataList(T data)` for a vector of optionals (data_list.h:58-59). -/
def DataList.ofVec (t : Ty) (vec : List (Option (Val t))) : DataList Val :=
  ⟨vec.length, .typed t vec⟩

/-- `DataList(T data)` for a vector of items (data_list.h:58-59). -/
def DataList.ofItems (vec : List (DataItem Val)) : DataList Val := ⟨vec.length, .items vec⟩

/-- `DataList(DenseArray, from, to)` (data_list.h:64-82); `none` stands for `to == -1`. -/
def DataList.ofDenseArray (t : Ty) (array : DenseArray (Val t)) (start : Nat)
    (stop : Option Nat) : DataList Val :=
  let stop := stop.getD array.values.length
  let size := stop - start
  ⟨size, .typed t ((List.range size).map fun i => array.get (start + i))⟩

/-- The value of an item as an optional of the type `t`: what the array of type `t` of a slice
holds at the position of the item (data_slice.h:336-356). -/
def DataItem.asT (t : Ty) : DataItem Val → Option (Val t)
  | .missing => none
  | .val t' v => if h : t' = t then some (h ▸ v) else none

/-- The types of the arrays of a slice (data_slice.h:336-356): the types of its present items.
Simplification: a slice is the list of its items. -/
def sliceTypes (slice : List (DataItem Val)) : List Ty :=
  slice.foldr (fun x ts =>
    match x with
    | .missing => ts
    | .val t _ => if t ∈ ts then ts else t :: ts) []

/-- `DataList(DataSliceImpl, from, to)` (data_list.cc:38-66). -/
def DataList.ofSlice (slice : List (DataItem Val)) (start : Nat) (stop : Option Nat) :
    DataList Val :=
  let stop := stop.getD slice.length
  let size := stop - start
  match sliceTypes slice with
  | [] => ⟨size, .allMissing⟩
  | [t] => ⟨size, .typed t ((List.range size).map fun i =>
      (slice.getD (start + i) .missing).asT t)⟩
  | _ => ⟨size, .items ((List.range size).map fun i => slice.getD (start + i) .missing)⟩

/-- `DataList::Get` (data_list.cc:99-110). -/
def DataList.get (l : DataList Val) (index : Nat) : DataItem Val :=
  match l.data with
  | .allMissing => .missing
  | .typed _ vec => .ofOpt (vec.getD index none)
  | .items vec => vec.getD index .missing

/-- `DataList::SetToMissing` (data_list.cc:112-120). -/
def DataList.setToMissing (l : DataList Val) (index : Nat) : DataList Val :=
  { l with data := match l.data with
    | .allMissing => .allMissing
    | .typed t vec => .typed t (vec.set index none)
    | .items vec => .items (vec.set index .missing) }

/-- `for (index = from; index < to; ++index) vec[index] = d` (data_list.cc:127-131). -/
def fillRange {α : Type} (d : α) (vec : List α) (start stop : Nat) : List α :=
  (List.range' start (stop - start)).foldl (fun vec i => vec.set i d) vec

/-- `DataList::SetMissingRange` (data_list.cc:122-136). -/
def DataList.setMissingRange (l : DataList Val) (start stop : Nat) : DataList Val :=
  { l with data := match l.data with
    | .allMissing => .allMissing
    | .typed t vec => .typed t (fillRange none vec start stop)
    | .items vec => .items (fillRange .missing vec start stop) }

/-- `vector::erase` of a range. -/
def eraseRange {α : Type} (vec : List α) (start stop : Nat) : List α :=
  vec.take start ++ vec.drop stop

/-- `DataList::Remove` (data_list.cc:138-148). -/
def DataList.remove (l : DataList Val) (start count : Nat) : DataList Val where
  data := match l.data with
    | .allMissing => .allMissing
    | .typed t vec => .typed t (eraseRange vec start (start + count))
    | .items vec => .items (eraseRange vec start (start + count))
  size := l.size - count

/-- `vector::resize`. -/
def resizeVec {α : Type} (d : α) (vec : List α) (size : Nat) : List α :=
  vec.take size ++ List.replicate (size - vec.length) d

/-- `for (i = size - 1; i >= from; --i) vec[i + count] = vec[i]` (data_list.cc:155-157); the
loop has `k` iterations left and the last of them is for `i = from`. -/
def shiftLoop {α : Type} (d : α) (start count : Nat) : Nat → List α → List α
  | 0, vec => vec
  | k + 1, vec =>
    let i := start + k
    shiftLoop d start count k (vec.set (i + count) (vec.getD i d))

/-- The body of `InsertMissing` on a vector (data_list.cc:153-162). -/
def insertMissingVec {α : Type} (d : α) (size start count : Nat) (vec : List α) : List α :=
  let vec := resizeVec d vec (size + count)
  let vec := shiftLoop d start count (size - start) vec
  fillRange d vec start (start + count)

/-- `DataList::InsertMissing` (data_list.cc:150-167). -/
def DataList.insertMissing (l : DataList Val) (start count : Nat) : DataList Val where
  data := match l.data with
    | .allMissing => .allMissing
    | .typed t vec => .typed t (insertMissingVec none l.size start count vec)
    | .items vec => .items (insertMissingVec .missing l.size start count vec)
  size := l.size + count

/-- `DataList::Resize` (data_list.cc:169-178). -/
def DataList.resize (l : DataList Val) (size : Nat) : DataList Val where
  data := match l.data with
    | .allMissing => .allMissing
    | .typed t vec => .typed t (resizeVec none vec size)
    | .items vec => .items (resizeVec .missing vec size)
  size := size

/-- `DataList::ConvertToDataItems` (data_list.cc:180-192). -/
def DataList.convertToDataItems (l : DataList Val) : List (DataItem Val) :=
  match l.data with
  | .allMissing => List.replicate l.size .missing
  | .typed _ vec => (List.range l.size).map fun i => .ofOpt (vec.getD i none)
  | .items vec => (List.range l.size).map fun i => vec.getD i .missing

/-- `ApplyDataItemOrT<T>` (data_list.h:214-241); the function that is applied is given for
both kinds of vectors. -/
def DataList.applyDataItemOrT (l : DataList Val) (t : Ty)
    (fnT : List (Option (Val t)) → List (Option (Val t)))
    (fnItem : List (DataItem Val) → List (DataItem Val)) : DataList Val :=
  let viaItems (data : List (DataItem Val)) : DataList Val :=
    let data := fnItem data
    ⟨data.length, .items data⟩
  let fresh : DataList Val :=
    let data := fnT (List.replicate l.size none)
    ⟨data.length, .typed t data⟩
  if l.size = 0 then fresh
  else match l.data with
    | .allMissing => fresh
    | .typed t' vec =>
      if h : t' = t then
        let data := fnT (h ▸ vec)
        ⟨data.length, .typed t data⟩
      else viaItems l.convertToDataItems
    | .items vec => viaItems vec

/-- `DataList::Set` of a value or an optional (data_list.h:105-120). -/
def DataList.setT (l : DataList Val) (index : Nat) (t : Ty) (value : Option (Val t)) :
    DataList Val :=
  l.applyDataItemOrT t (fun vec => vec.set index value) (fun vec => vec.set index (.ofOpt value))

/-- `DataList::Set` of an item (data_list.h:122-131). -/
def DataList.set (l : DataList Val) (index : Nat) (item : DataItem Val) : DataList Val :=
  match l.data with
  | .items vec => { l with data := .items (vec.set index item) }
  | _ =>
    match item with
    | .missing => l.setToMissing index
    | .val t v => l.setT index t (some v)

/-- `*dst++ = v` for all values, from `dst` on (data_list.h:140-151). -/
def writeFrom {α : Type} (vec : List α) (dst : Nat) : List α → List α
  | [] => vec
  | v :: vs => writeFrom (vec.set dst v) (dst + 1) vs

/-- The values that `SetN` writes (data_list.h:142-150). -/
def DenseArray.toOptionals {T : Type} (a : DenseArray T) : List (Option T) :=
  if a.bitmap.isEmpty then a.values.map some
  else (List.range a.values.length).map a.get

/-- `DataList::SetN` (data_list.h:134-153). -/
def DataList.setN (l : DataList Val) (startIndex : Nat) (t : Ty) (data : DenseArray (Val t)) :
    DataList Val :=
  l.applyDataItemOrT t (fun vec => writeFrom vec startIndex data.toOptionals)
    (fun vec => writeFrom vec startIndex (data.toOptionals.map .ofOpt))

/-- `vector::insert` of one element. -/
def insertAt {α : Type} (vec : List α) (index : Nat) (v : α) : List α :=
  vec.take index ++ v :: vec.drop index

/-- `DataList::Insert` of a value or an optional (data_list.h:161-178). -/
def DataList.insertT (l : DataList Val) (index : Nat) (t : Ty) (value : Option (Val t)) :
    DataList Val :=
  l.applyDataItemOrT t (fun vec => insertAt vec index value)
    (fun vec => insertAt vec index (.ofOpt value))

/-- `DataList::Insert` of an item (data_list.h:180-191). -/
def DataList.insert (l : DataList Val) (index : Nat) (item : DataItem Val) : DataList Val :=
  match l.data with
  | .items vec =>
    let data := insertAt vec index item
    ⟨data.length, .items data⟩
  | _ =>
    match item with
    | .missing => l.insertMissing index 1
    | .val t v => l.insertT index t (some v)

/-- `SliceBuilder::InsertIfNotSet` (slice_builder.h:108-110): the builder is the list of its
positions, `none` if not yet set. Simplification: the types buffer, the typed storages and the
set of allocation ids are not modelled. -/
def insertIfNotSet (bldr : List (Option (DataItem Val))) (id : Nat) (v : DataItem Val) :
    List (Option (DataItem Val)) :=
  match bldr[id]? with
  | some none => bldr.set id (some v)
  | _ => bldr

/-- `for (i = from; i < to; ++i, ++offset) bldr.InsertIfNotSet(offset, vec[i])`
(data_list.cc:79-94). -/
def addLoop (get : Nat → DataItem Val) : Nat → Nat → Nat → List (Option (DataItem Val)) →
    List (Option (DataItem Val))
  | 0, _, _, bldr => bldr
  | k + 1, i, offset, bldr => addLoop get k (i + 1) (offset + 1) (insertIfNotSet bldr offset (get i))

/-- `DataList::AddToDataSlice` (data_list.cc:68-97); `none` stands for `to == -1`. -/
def DataList.addToDataSlice (l : DataList Val) (bldr : List (Option (DataItem Val)))
    (offset start : Nat) (stop : Option Nat) : List (Option (DataItem Val)) :=
  let stop := stop.getD l.size
  match l.data with
  | .items vec => addLoop (fun i => vec.getD i .missing) (stop - start) start offset bldr
  | .allMissing => bldr
  | .typed _ vec => addLoop (fun i => .ofOpt (vec.getD i none)) (stop - start) start offset bldr

end Verif.DataList
