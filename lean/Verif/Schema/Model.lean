import Verif.Uuid.Model

/-!
Model of `koladata/internal/schema_utils.{h,cc}`: the lattice of dtypes, the common
schema of many schemas, implicit casts and no-follow schemas.
-/

namespace Verif.Schema

open Verif.ObjectId Verif.Uuid

/-- `DTypeId` (dtype.h:73, 79-113). -/
abbrev DTypeId := Nat

/-- `kNextDTypeId` (dtype.h:143). -/
def kNextDTypeId : Nat := 14

/-- `kInt64` -/
def kInt64 : Fin 14 := 0
/-- `kInt32` -/
def kInt32 : Fin 14 := 1
/-- `kFloat32` -/
def kFloat32 : Fin 14 := 2
/-- `kFloat64` -/
def kFloat64 : Fin 14 := 3
/-- `kBool` -/
def kBool : Fin 14 := 4
/-- `kMask` -/
def kMask : Fin 14 := 5
/-- `kBytes` -/
def kBytes : Fin 14 := 6
/-- `kString` -/
def kString : Fin 14 := 7
/-- `kExpr` -/
def kExpr : Fin 14 := 8
/-- `kItemId` -/
def kItemId : Fin 14 := 10
/-- `kObject` -/
def kObject : Fin 14 := 11
/-- `kSchema` -/
def kSchema : Fin 14 := 12
/-- `kNone` -/
def kNone : Fin 14 := 13

/-- `DTypeLattice` (schema_utils.h:40). -/
abbrev DTypeLattice := List (List Bool)

/-- `lattice[i][j]`. -/
def DTypeLattice.at (m : DTypeLattice) (i j : Nat) : Bool := (m.getD i []).getD j false

/-- `fill_row` (schema_utils.h:50-56). -/
def fillRow (adjacent : List (Fin 14)) : List Bool :=
  adjacent.foldl (fun row d => row.set d.val true) (List.replicate kNextDTypeId false)

/-- `GetDTypeLattice` (schema_utils.h:48-73). -/
def getDTypeLattice : DTypeLattice :=
  let l : DTypeLattice := List.replicate kNextDTypeId (List.replicate kNextDTypeId false)
  let l := l.set kNone.val
    (fillRow [kItemId, kSchema, kInt32, kMask, kBool, kBytes, kString, kExpr])
  let l := l.set kItemId.val (fillRow [])
  let l := l.set kSchema.val (fillRow [])
  let l := l.set kInt32.val (fillRow [kInt64])
  let l := l.set kInt64.val (fillRow [kFloat32])
  let l := l.set kFloat32.val (fillRow [kFloat64])
  let l := l.set kFloat64.val (fillRow [kObject])
  let l := l.set kMask.val (fillRow [kObject])
  let l := l.set kBool.val (fillRow [kObject])
  let l := l.set kBytes.val (fillRow [kObject])
  let l := l.set kString.val (fillRow [kObject])
  let l := l.set kExpr.val (fillRow [kObject])
  let l := l.set kObject.val (fillRow [])
  l

/-- The innermost loop (schema_utils.h:88-90): the row `i` after it. -/
def orRows (m : DTypeLattice) (i k : Nat) : List Bool :=
  (List.range kNextDTypeId).map (fun j => m.at i j || m.at k j)

/-- `GetReachableDTypes` (schema_utils.h:76-94). -/
def getReachableDTypes : DTypeLattice :=
  let init := (List.range kNextDTypeId).foldl
    (fun m i => m.set i ((m.getD i []).set i true)) getDTypeLattice
  (List.range kNextDTypeId).foldl (fun m k =>
    (List.range kNextDTypeId).foldl (fun m i =>
      if !m.at i k then m else m.set i (orRows m i k)) m) init

/-- `get_common_dtype` (schema_utils.h:127-152) with the table of reachable dtypes as a
parameter. `none` is the `LOG(FATAL)`, with which the program does not compile; the inner
`none` is `kUnknownDType`. -/
def getCommonDType (reachable : DTypeLattice) (a b : DTypeId) : Option (Option DTypeId) :=
  let cub := (List.range kNextDTypeId).map (fun i => reachable.at a i && reachable.at b i)
  if !cub.any id then some none
  else ((List.range kNextDTypeId).find?
    (fun i => cub.getD i false && cub == reachable.getD i [])).map some

/-- `GetMatrixImpl` (schema_utils.h:126-160). -/
def getMatrixImpl : List (List (Option (Option DTypeId))) :=
  let reachable := getReachableDTypes
  (List.range kNextDTypeId).map (fun i =>
    (List.range kNextDTypeId).map (fun j => getCommonDType reachable i j))

/-- `CommonDType` (schema_utils.h:170-176). -/
def commonDType (a b : DTypeId) : Option (Option DTypeId) :=
  (getMatrixImpl.getD a []).getD b none

/-- The errors of this file. -/
inductive Err where
  /-- `NoCommonSchemaError` -/
  | noCommonSchema (common conflicting : Item)
  /-- "expected Schema, got: ..." -/
  | expectedSchema
  /-- "calling nofollow on ... is not allowed" and the internal errors beside it -/
  | nofollowNotAllowed
  /-- "a nofollow schema is required in get_nofollowed_schema" -/
  | nofollowRequired
  /-- Not a run-time error: the table could not be computed by the compiler. -/
  | malformed
deriving DecidableEq, Repr

/-- `absl::countr_zero` of a positive number. -/
def countrZero (m : Nat) : Nat :=
  if _h : m = 0 then 0 else if m % 2 = 1 then 0 else countrZero (m / 2) + 1
termination_by m
decreasing_by omega

/-- The loop of `CommonDTypeAggregator::Get` (schema_utils.cc:54-72). -/
def aggregateMask (res : DTypeId) (mask : Nat) : Except Err DTypeId :=
  let mask' := mask &&& (mask - 1)
  if h : mask' = 0 then .ok res
  else
    let i := countrZero mask'
    match commonDType res i with
    | none => .error .malformed
    | some none => .error (.noCommonSchema (.dtype (Fin.ofNat 14 res)) (.dtype (Fin.ofNat 14 i)))
    | some (some c) => aggregateMask c mask'
termination_by mask
decreasing_by
  have h1 : mask &&& (mask - 1) ≤ mask - 1 := Nat.and_le_right
  have h2 : mask ≠ 0 := fun e => h (by show mask &&& (mask - 1) = 0; rw [e]; rfl)
  show mask &&& (mask - 1) < mask
  omega

/-- `CommonDTypeAggregator::Get` (schema_utils.cc:47-73). -/
def getDType (seen : Nat) : Except Err (Option DTypeId) :=
  if seen = 0 then .ok none
  else match aggregateMask (countrZero seen) seen with
    | .error e => .error e
    | .ok d => .ok (some d)

/-- `CommonSchemaAggregator` (schema_utils.h:180-199); `seen` is the `uint16` of
`CommonDTypeAggregator`. -/
structure Aggregator where
  /-- `dtype_agg_.seen_dtypes_` -/
  seen : Nat := 0
  /-- `res_object_id_` -/
  resObject : Option ObjectId := none
  /-- `status_` -/
  status : Option Err := none

namespace Aggregator

/-- `Add(DType)` (schema_utils.h:102, 188). -/
def addDType (g : Aggregator) (d : Fin 14) : Aggregator :=
  { g with seen := g.seen ||| (1 <<< d.val) }

/-- `Add(ObjectId)` (schema_utils.cc:89-106). -/
def addObject (g : Aggregator) (o : ObjectId) : Aggregator :=
  if !o.isSchema then { g with status := some .expectedSchema }
  else match g.resObject with
    | none => { g with resObject := some o }
    | some r =>
      if !r.eq o then { g with status := some (.noCommonSchema (.object r) (.object o)) }
      else g

/-- `Add(DataItem)` (schema_utils.cc:75-87). -/
def add (g : Aggregator) : Item → Aggregator
  | .dtype d => g.addDType d
  | .object o => g.addObject o
  | .missing => g
  | _ => { g with status := some .expectedSchema }

/-- The end of `Get`, after the status was checked (schema_utils.cc:113-128). -/
def combine (dtype : Option DTypeId) (object : Option ObjectId) : Except Err Item :=
  match dtype, object with
  | some d, none => .ok (.dtype (Fin.ofNat 14 d))
  | none, some o => .ok (.object o)
  | none, none => .ok .missing
  | some d, some o =>
    if d = kNone.val then .ok (.object o)
    else .error (.noCommonSchema (.dtype (Fin.ofNat 14 d)) (.object o))

/-- `Get` (schema_utils.cc:108-129): an error of the dtypes replaces the status. -/
def get (g : Aggregator) : Except Err Item :=
  match getDType g.seen with
  | .error e => .error e
  | .ok d =>
    match g.status with
    | some e => .error e
    | none => combine d g.resObject

end Aggregator

/-- `CommonSchema(DataItem, DataItem)` (schema_utils.h:227-233) and, for other numbers
of items, the uses of the aggregator: all items are added and the result is taken. -/
def commonSchema (items : List Item) : Except Err Item :=
  (items.foldl Aggregator.add {}).get

/-- A typed array of a slice. -/
inductive Array where
  | dtypes (values : List (Option (Fin 14)))
  | objects (values : List (Option ObjectId))
  | other
deriving Repr

/-- One call of the visitor (schema_utils.cc:135-151). -/
def visitArray (g : Aggregator) : Array → Except Err Aggregator
  | .dtypes values => .ok (values.foldl
      (fun g v => match v with | some d => g.addDType d | none => g) g)
  | .objects values => .ok (values.foldl
      (fun g v => match v with | some o => g.addObject o | none => g) g)
  | .other => .error .expectedSchema

/-- `VisitValues` over the arrays of a slice. -/
def visitArrays (g : Aggregator) : List Array → Except Err Aggregator
  | [] => .ok g
  | a :: rest => match visitArray g a with
    | .error e => .error e
    | .ok g' => visitArrays g' rest

/-- `CommonSchema(DataSliceImpl)` (schema_utils.cc:131-153). -/
def commonSchemaSlice (arrays : List Array) : Except Err Item :=
  match visitArrays {} arrays with
  | .error e => .error e
  | .ok g => g.get

/-- `IsImplicitlyCastableTo` (schema_utils.cc:155-171). -/
def isImplicitlyCastableTo : Item → Item → Bool
  | .dtype a, .dtype b => commonDType a.val b.val == some (some b.val)
  | .object a, .object b => a.eq b
  | .dtype a, .object _ => a == kNone
  | _, _ => false

/-- `NoFollowSchemaItem` (schema_utils.cc:173-201). -/
def noFollowSchemaItem : Item → Except Err Item
  | .dtype d =>
    if d ≠ kObject then .error .nofollowNotAllowed
    else .ok (.object ObjectId.noFollowObjectSchemaId)
  | .object o =>
    if !o.isSchema then .error .nofollowNotAllowed
    else if o.isNoFollowSchema then .error .nofollowNotAllowed
    else .ok (.object (createNoFollowWithMainObject o))
  | _ => .error .nofollowNotAllowed

/-- `GetNoFollowedSchemaItem` (schema_utils.cc:203-215). `none` is the undefined
behaviour of `value<ObjectId>()` on an item that is neither. -/
def getNoFollowedSchemaItem : Item → Option (Except Err Item)
  | .dtype _ => some (.error .nofollowRequired)
  | .object o =>
    if !o.isNoFollowSchema then some (.error .nofollowRequired)
    else if o.eq ObjectId.noFollowObjectSchemaId then some (.ok (.dtype kObject))
    else some (.ok (.object (getOriginalFromNoFollow o)))
  | _ => none

end Verif.Schema
