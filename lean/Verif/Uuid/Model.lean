import Verif.ObjectId.SetModel

/-!
Model of the computation of uuids: `koladata/internal/stable_fingerprint.{h,cc}`,
`DataItem::StableFingerprint` (`data_item.cc`), `uuid_object.{h,cc}` and
`op_utils/agg_uuid.cc`.

The hash function is a parameter: the model follows which bytes are fed to it and in
which order.
-/

namespace Verif.Uuid

open Verif.ObjectId

/-- A byte string. -/
abbrev Bytes := List UInt8

/-- The bytes of a literal. -/
def chars (l : List Char) : Bytes := l.map (fun c => UInt8.ofNat c.toNat)

/-- The first `n` bytes of a number in memory (little endian). -/
def leBytes : Nat → Nat → Bytes
  | 0, _ => []
  | n + 1, x => UInt8.ofNat (x % 256) :: leBytes n (x / 256)

/-- The hash function: the state of `StableFingerprintHasher` (stable_fingerprint.h:64),
its initial value (stable_fingerprint.cc:26-30), `CityHash128WithSeed`
(stable_fingerprint.cc:43) and the packing of the state (stable_fingerprint.cc:36-38). -/
structure HashFn (S : Type) where
  init : S
  mix : Bytes → S → S
  finish : S → BitVec 128

section
variable {S : Type} (H : HashFn S)

/-- `CombineRawBytes` (stable_fingerprint.cc:40-45). -/
def combineRawBytes (data : Bytes) (s : S) : S := H.mix data s

/-- `Combine` of an arithmetic type (stable_fingerprint.h:107-110): the name of the type
and the bytes of the value. -/
def combineArith (typeName : Bytes) (value : Bytes) (s : S) : S :=
  combineRawBytes H value (combineRawBytes H typeName s)

/-- `typeid(size_t).name()`. -/
def nameSizeT : Bytes := chars ['m']
/-- `typeid(int32_t).name()`. -/
def nameInt32 : Bytes := chars ['i']
/-- `typeid(int64_t).name()`. -/
def nameInt64 : Bytes := chars ['l']
/-- `typeid(float).name()`. -/
def nameFloat : Bytes := chars ['f']
/-- `typeid(double).name()`. -/
def nameDouble : Bytes := chars ['d']
/-- `typeid(bool).name()`. -/
def nameBool : Bytes := chars ['b']

/-- `Combine` of a `size_t`. -/
def combineSize (n : Nat) (s : S) : S := combineArith H nameSizeT (leBytes 8 n) s

/-- `Combine` of a string (stable_fingerprint.h:103-106). -/
def combineString (str : Bytes) (s : S) : S :=
  combineRawBytes H str (combineSize H str.length s)

/-- `StableFingerprintHasher(salt)` (stable_fingerprint.cc:26-30). -/
def newHasher (salt : Bytes) : S := combineString H salt H.init

/-- `Combine` of a fingerprint (stable_fingerprint.h:91-94). -/
def combineFingerprint (fp : BitVec 128) (s : S) : S :=
  combineRawBytes H (leBytes 16 fp.toNat) s

/-- The bytes of an id in memory: its two words. -/
def idBytes (o : ObjectId) : Bytes := leBytes 8 o.high64.toNat ++ leBytes 8 o.low64.toNat

/-- `Combine` of an `ObjectId` (stable_fingerprint.h:91-94). -/
def combineObjectId (o : ObjectId) (s : S) : S := combineRawBytes H (idBytes o) s

/-- `Combine` of an `AllocationId` (stable_fingerprint.h:91-94). -/
def combineAllocationId (a : AllocationId) (s : S) : S := combineRawBytes H (idBytes a.raw) s

end

/-- A data item (`ScalarVariant`, internal/types.h:42-59). Floating point numbers are
their bits, dtypes their numbers (all below `kNextDTypeId`, dtype.h). An expression is the string that stands for it in
`StableFingerprint(ExprQuote)` (expr_quote_utils.cc:34-41). -/
inductive Item where
  | missing
  | object (o : ObjectId)
  | int32 (v : BitVec 32)
  | int64 (v : BitVec 64)
  | float32 (bits : BitVec 32)
  | float64 (bits : BitVec 64)
  | bool (b : Bool)
  | unit
  | text (s : Bytes)
  | bytes (s : Bytes)
  | expr (serialized : Bytes)
  | dtype (id : Fin 14)
deriving DecidableEq, Repr

/-- The decimal digits of a number, as `StrCat` prints them. -/
def decimal (n : Nat) : Bytes := chars (Nat.toDigits 10 n)

/-- The string of a missing value: the literal `"s\0td::nu\0llop\0t_\0t"` ends at its
first zero when it is made a `string_view` (stable_fingerprint.h:89-90). -/
def missingTag : Bytes := chars ['s']
/-- The string of `Unit`, cut in the same way (stable_fingerprint.h:95-96). -/
def unitTag : Bytes := chars ['a']
/-- The string before a text (stable_fingerprint.h:98). -/
def textTag : Bytes := chars ['a', 'r', 'o', 'l', 'l', 'a', ':', ':', 'T', 'e', 'x', 't']
/-- The string before bytes (stable_fingerprint.h:100). -/
def bytesTag : Bytes := chars ['a', 'r', 'o', 'l', 'l', 'a', ':', ':', 'B', 'y', 't', 'e', 's']
/-- The string of a dtype before its number, cut at the first zero (dtype.h:250). -/
def dtypeTag : Bytes := chars [':', ':', 's', 'c']
/-- The salt of `DataItem::StableFingerprint` (data_item.cc:106). -/
def dataItemSalt : Bytes := chars ['d', 'a', 't', 'a', '_', 'i', 't', 'e', 'm']

section
variable {S : Type} (H : HashFn S)

/-- `Combine` of the value of a data item (stable_fingerprint.h:83-117, dtype.h:244-251). -/
def combineItem (s : S) : Item → S
  | .missing => combineString H missingTag s
  | .object o => combineObjectId H o s
  | .int32 v => combineArith H nameInt32 (leBytes 4 v.toNat) s
  | .int64 v => combineArith H nameInt64 (leBytes 8 v.toNat) s
  | .float32 v => combineArith H nameFloat (leBytes 4 v.toNat) s
  | .float64 v => combineArith H nameDouble (leBytes 8 v.toNat) s
  | .bool b => combineArith H nameBool (leBytes 1 b.toNat) s
  | .unit => combineString H unitTag s
  | .text t => combineString H t (combineString H textTag s)
  | .bytes t => combineString H t (combineString H bytesTag s)
  | .expr e => combineString H e s
  | .dtype n => combineString H (dtypeTag ++ decimal n.val) s

/-- `DataItem::StableFingerprint` (data_item.cc:105-109). -/
def stableFingerprint (x : Item) : BitVec 128 :=
  H.finish (combineItem H (newHasher H dataItemSalt) x)

/-- `<` of `string_view`. -/
def bytesLt : Bytes → Bytes → Bool
  | _, [] => false
  | [], _ :: _ => true
  | a :: as, b :: bs => if a < b then true else if b < a then false else bytesLt as bs

/-- One step of `std::sort`. -/
def insertBy {α : Type} (lt : α → α → Bool) (x : α) : List α → List α
  | [] => [x]
  | y :: ys => if lt y x then y :: insertBy lt x ys else x :: y :: ys

/-- `std::sort` with a comparison. The order of elements that compare equal is not
specified by the library; here it is that of the input. -/
def sortBy {α : Type} (lt : α → α → Bool) : List α → List α
  | [] => []
  | x :: xs => insertBy lt x (sortBy lt xs)

/-- "uuid" (uuid_object.cc:50). -/
def uuidSalt : Bytes := chars ['u', 'u', 'i', 'd']
/-- "list_uuid" (uuid_object.cc:186). -/
def listSalt : Bytes := chars ['l', 'i', 's', 't', '_', 'u', 'u', 'i', 'd']
/-- "dict_uuid" (uuid_object.cc:202). -/
def dictSalt : Bytes := chars ['d', 'i', 'c', 't', '_', 'u', 'u', 'i', 'd']
/-- "uuid_with_main_object" (uuid_object.cc:74). -/
def mainSalt : Bytes := uuidSalt ++
  chars ['_', 'w', 'i', 't', 'h', '_', 'm', 'a', 'i', 'n', '_', 'o', 'b', 'j', 'e', 'c', 't']
/-- "uuids_with_allocation_size" (uuid_object.cc:86). -/
def sizeSalt : Bytes := uuidSalt ++
  chars ['s', '_', 'w', 'i', 't', 'h', '_', 'a', 'l', 'l', 'o', 'c', 'a', 't', 'i', 'o', 'n',
    '_', 's', 'i', 'z', 'e']

/-- The state of the hasher at the end of `ComputeFingerPrintFromKwargs`
(uuid_object.cc:46-55). -/
def hashKwargs (seed : Bytes) (fps : List (Bytes × BitVec 128)) : S :=
  fps.foldl (fun s p => combineFingerprint H p.2 (combineString H p.1 s))
    (newHasher H (uuidSalt ++ seed))

/-- Comparison of fields by name (uuid_object.cc:118, 148, 235). -/
def nameLt {α : Type} (x y : Bytes × α) : Bool := bytesLt x.1 y.1

/-- The sorted names and fingerprints (uuid_object.cc:111-118). -/
def sortedFingerprints (fields : List (Bytes × Item)) : List (Bytes × BitVec 128) :=
  sortBy nameLt (fields.map (fun f => (f.1, stableFingerprint H f.2)))

/-- `ComputeFingerprintFromFields` (uuid_object.cc:107-121). -/
def fingerprintFromFields (seed : Bytes) (fields : List (Bytes × Item)) : BitVec 128 :=
  H.finish (hashKwargs H seed (sortedFingerprints H fields))

/-- `CreateUuidFromFields` of items (uuid_object.cc:123-129). -/
def uuidFromFields (seed : Bytes) (fields : List (Bytes × Item)) (type : UuidType) : ObjectId :=
  createUuidObject (fingerprintFromFields H seed fields) type

/-- `CommonKwargsSize` (uuid_object.cc:57-70); the value -1 is `none`. -/
def commonSize (fields : List (Bytes × List Item)) (size : Option Nat) :
    Except Unit (Option Nat) :=
  match fields with
  | [] => .ok size
  | f :: rest =>
    match size with
    | none => commonSize rest (some f.2.length)
    | some n => if f.2.length ≠ n then .error () else commonSize rest (some n)

/-- The id at one position (uuid_object.cc:159-168); the fields are sorted. -/
def uuidAt (seed : Bytes) (sorted : List (Bytes × List Item)) (type : UuidType) (i : Nat) :
    ObjectId :=
  createUuidObject (H.finish (hashKwargs H seed
    (sorted.map fun f => (f.1, stableFingerprint H (f.2.getD i .missing))))) type

/-- `CreateUuidFromFields` of slices (uuid_object.cc:131-173). -/
def uuidFromFieldsSlice (seed : Bytes) (fields : List (Bytes × List Item)) (type : UuidType) :
    Except Unit (List ObjectId) :=
  match commonSize fields none with
  | .error e => .error e
  | .ok none => .ok []
  | .ok (some 0) => .ok []
  | .ok (some (n + 1)) =>
    .ok ((List.range (n + 1)).map (uuidAt H seed (sortBy nameLt fields) type))

/-- `UuidsWithAllocationSizeFingerprint` (uuid_object.cc:84-89). -/
def allocationSizeFingerprint (seed : Bytes) (size : BitVec 64) : BitVec 128 :=
  H.finish (combineArith H nameInt64 (leBytes 8 size.toNat)
    (combineString H seed (newHasher H sizeSalt)))

/-- `CreateUuidsWithAllocationSize` (uuid_object.cc:175-180) with
`ObjectsFromAllocation` (data_slice.cc:84-100), for a `size` that is not negative. -/
def uuidsWithAllocationSize (seed : Bytes) (size : BitVec 64) : List ObjectId :=
  let a := allocateUuids (allocationSizeFingerprint H seed size) size
  (List.range size.toNat).map (fun i => a.objectByOffset (BitVec.ofNat 64 i))

/-- The state of the hasher at the end of `CreateListUuidFromItemsAndFields`. -/
def hashList (seed : Bytes) (items : List (BitVec 128)) (fieldsFp : BitVec 128) : S :=
  items.foldl (fun s x => combineFingerprint H x s)
    (combineSize H items.length (combineFingerprint H fieldsFp (newHasher H (listSalt ++ seed))))

/-- `CreateListUuidFromItemsAndFields` (uuid_object.cc:182-194). -/
def listUuid (seed : Bytes) (items : List Item) (fields : List (Bytes × Item)) : ObjectId :=
  createUuidObject (H.finish (hashList H seed (items.map (stableFingerprint H))
    (fingerprintFromFields H seed fields))) .list

/-- Comparison of dict items by the fingerprint of the key (uuid_object.cc:213-216). -/
def keyLt (x y : BitVec 128 × BitVec 128) : Bool := x.1.toNat < y.1.toNat

/-- The state of the hasher at the end of `CreateDictUuidFromKeysValuesAndFields`. -/
def hashDict (seed : Bytes) (items : List (BitVec 128 × BitVec 128)) (fieldsFp : BitVec 128) : S :=
  (sortBy keyLt items).foldl (fun s x => combineFingerprint H x.2 (combineFingerprint H x.1 s))
    (combineSize H items.length (combineFingerprint H fieldsFp (newHasher H (dictSalt ++ seed))))

/-- `CreateDictUuidFromKeysValuesAndFields` (uuid_object.cc:196-222); the keys and
values come as pairs. -/
def dictUuid (seed : Bytes) (items : List (Item × Item)) (fields : List (Bytes × Item)) : ObjectId :=
  createUuidObject (H.finish (hashDict H seed
    (items.map (fun p => (stableFingerprint H p.1, stableFingerprint H p.2)))
    (fingerprintFromFields H seed fields))) .dict

/-- `CreateSchemaUuidFromFields` (uuid_object.cc:224-238). -/
def schemaUuid (seed : Bytes) (fields : List (Bytes × Item)) : ObjectId :=
  createUuidExplicitSchema (H.finish (hashKwargs H seed (sortedFingerprints H fields)))

/-- `UuidWithMainObjectFingerprint` (uuid_object.cc:72-82). -/
def mainFingerprint (a : AllocationId) (salt : Bytes) : BitVec 128 :=
  H.finish (combineAllocationId H a (combineString H salt (newHasher H mainSalt)))

/-- `compute_uu_obj_id` (uuid_object.cc:275-278). -/
def computeUuObjId (flag : BitVec 6) (salt : Bytes) (o : ObjectId) : ObjectId :=
  createUuidWithMainObject flag o (mainFingerprint H (AllocationId.ofObject o) salt)

/-- `CreateUuidWithMainObject` of an item (uuid_object.cc:240-252). -/
def uuidWithMain (flag : BitVec 6) (salt : Bytes) : Item → Except Unit Item
  | .missing => .ok .missing
  | .object o => .ok (.object (computeUuObjId H flag salt o))
  | _ => .error ()

/-- A slice of main objects: of unknown type with the given size, of ids with the set
of their allocations, or of another type. -/
inductive MainSlice where
  | emptyUnknown (size : Nat)
  | objects (ids : List (Option ObjectId)) (allocs : AllocationIdSet)
  | other

/-- `big_alloc_id_map.find(alloc_id)->second` (uuid_object.cc:307): the last argument
is the map; `none` is the undefined behaviour of an unsuccessful search. -/
def findAlloc (a : AllocationId) : List (AllocationId × AllocationId) → Option AllocationId
  | [] => none
  | (k, v) :: rest => if k = a then some v else findAlloc a rest

/-- The ids of the general case (uuid_object.cc:302-309). -/
def uuidWithMainElement (flag : BitVec 6) (salt : Bytes)
    (map : List (AllocationId × AllocationId)) : Option ObjectId → Option (Option ObjectId)
  | none => some none
  | some o =>
    if o.isSmallAlloc then some (some (computeUuObjId H flag salt o))
    else (findAlloc (AllocationId.ofObject o) map).map
      (fun a => some (a.objectByOffset o.offset))

/-- The insertion loop (uuid_object.cc:295-300) of the set of new allocations. -/
def insertAll (s : AllocationIdSet) : List AllocationId → Option AllocationIdSet
  | [] => some s
  | a :: rest => match s.insert a with
    | none => none
    | some (s', _) => insertAll s' rest

/-- `CreateUuidWithMainObject` of a slice (uuid_object.cc:261-312). The outer `Option`
is for undefined behaviour. -/
def uuidWithMainSlice (flag : BitVec 6) (salt : Bytes) : MainSlice → Option (Except Unit MainSlice)
  | .emptyUnknown n => some (.ok (.emptyUnknown n))
  | .other => some (.error ())
  | .objects ids allocs =>
    let newAlloc (a : AllocationId) : AllocationId :=
      AllocationId.ofObject (computeUuObjId H flag salt (a.objectByOffset 0))
    match allocs.containsSmall, allocs.ids with
    | false, [a] =>
      some (.ok (.objects (ids.map (Option.map (fun o => (newAlloc a).objectByOffset o.offset)))
        (.ofId (newAlloc a))))
    | small, as =>
      (insertAll (.ofBool small) (as.map newAlloc)).bind fun finalSet =>
      (ids.mapM (uuidWithMainElement H flag salt (as.map fun a => (a, newAlloc a)))).map fun r =>
      .ok (.objects r finalSet)

/-- The state of `AggUuidAggregator` after adding the present items (agg_uuid.cc:48-60). -/
def hashAgg (fps : List (BitVec 128)) : S :=
  (fps.foldl (fun (st : S × Nat) fp =>
    (combineArith H nameInt64 (leBytes 8 st.2) (combineFingerprint H fp st.1), st.2 + 1))
    (newHasher H uuidSalt, 0)).1

/-- `AggUuidOp` for one group (agg_uuid.cc:45-82): missing items are not added. -/
def aggUuid (items : List Item) : ObjectId :=
  createUuidObject (H.finish (hashAgg H
    ((items.filter (fun x => x ≠ .missing)).map (stableFingerprint H)))) .default

end

end Verif.Uuid
