import Verif.Traverse.Model

/-!
Model of `kd.deep_clone`, `koladata/internal/op_utils/deep_clone.cc`, with the walk over the
data of `Verif.Traverse`.

Slices of schemas and schemas with metadata are not modelled: the functions return
`unsupported` for them. The new bag is given by what its read functions return. The content of
explicit schemas, which is copied under the old ids at the end (deep_clone.cc:582-595, the
operation `extract`), is not modelled either; the list of these schemas is.
-/

namespace Verif.Clone

open Verif.ObjectId
open Verif.Uuid
open Verif.Traverse

/-- "__implicit_schema__" (schema_attrs.h:45). -/
def implicitSeed : Bytes := chars ['_', '_', 'i', 'm', 'p', 'l', 'i', 'c', 'i', 't', '_', 's', 'c',
  'h', 'e', 'm', 'a', '_', '_']

/-- What the new `DataBagImpl` returns. -/
structure NewBag where
  /-- `GetAttr` (data_bag.cc:812-825). -/
  attr : ObjectId → Name → Item
  /-- The items of a list. -/
  list : ObjectId → List Item
  /-- The value that is stored for a key of a dict. -/
  dict : ObjectId → Item → Option Item
  /-- `GetSchemaAttr`, missing when it is not set. -/
  schemaAttr : ObjectId → Name → Item

namespace NewBag

/-- The empty bag that the clone is put into (operators/core.cc:877-879). -/
def empty : NewBag := ⟨fun _ _ => .missing, fun _ => [], fun _ _ => none, fun _ _ => .missing⟩

/-- `SetAttr` (data_bag.cc:1258-1285). -/
def setAttr (g : NewBag) (o : ObjectId) (n : Name) (v : Item) : NewBag :=
  { g with attr := fun p m => if p = o ∧ m = n then v else g.attr p m }

/-- `ExtendList` (data_bag.cc:2016-2042). -/
def extend (g : NewBag) (o : ObjectId) (vs : List Item) : NewBag :=
  { g with list := fun p => if p = o then g.list p ++ vs else g.list p }

/-- `SetInDict` for one key (data_bag.cc:2724-2737). -/
def setKey (g : NewBag) (o : ObjectId) (k v : Item) : NewBag :=
  { g with dict := fun p j => if p = o ∧ j = k then some v else g.dict p j }

/-- `SetInDict` for keys and values (data_bag.cc:2452-2500). -/
def setKeys (g : NewBag) (o : ObjectId) : List (Item × Item) → NewBag
  | [] => g
  | (k, v) :: rest => (g.setKey o k v).setKeys o rest

/-- `SetSchemaAttr` (data_bag.cc:3007-3042). Its checks of the value are not modelled. -/
def setSchemaAttr (g : NewBag) (o : ObjectId) (n : Name) (v : Item) : NewBag :=
  { g with schemaAttr := fun p m => if p = o ∧ m = n then v else g.schemaAttr p m }

end NewBag

/-- `allocation_tracker_`, `explicit_schemas_` and `new_databag_` (deep_clone.cc:556-563), and
the number of allocations made so far. -/
structure State where
  tracker : List (AllocationId × AllocationId)
  explicit : List ObjectId
  bag : NewBag
  count : Nat

/-- The state of a new visitor (deep_clone.cc:175-182). -/
def State.start : State := ⟨[], [], .empty, 0⟩

section
variable {S : Type} (H : HashFn S)
/- The allocations made by the process: the number of the allocation, the kind of the ids and
the number of bits of the offset. -/
variable (alloc : Nat → BitVec 6 → BitVec 6 → AllocationId)

/-- `NewAllocationIdLike` (object_id.h:409-419): new ids of the same kind, not uuids. -/
def newLike (n : Nat) (a : AllocationId) : AllocationId :=
  alloc n (a.raw.metadata &&& ~~~kUuidFlag) a.raw.offsetBits

/-- `AllocateExplicitSchemas(a.Capacity())` (object_id.h:402-407). The capacity is a power of
two, so there are as many bits for the offset as before. -/
def newSchemas (n : Nat) (a : AllocationId) : AllocationId :=
  alloc n kExplicitSchemaFlag a.raw.offsetBits

/-- `GetValueFromTrackedAllocation` (deep_clone.cc:403-412). -/
def tracked (t : List (AllocationId × AllocationId)) (o : ObjectId) : Option ObjectId :=
  (findAlloc (AllocationId.ofObject o) t).map (fun a => a.objectByOffset o.offset)

/-- `PrevisitObject` (deep_clone.cc:448-459). -/
def previsitObject (st : State) : Item → State
  | .object o =>
    match findAlloc (AllocationId.ofObject o) st.tracker with
    | some _ => st
    | none =>
      { st with
        tracker := (AllocationId.ofObject o, newLike alloc st.count (AllocationId.ofObject o)) ::
          st.tracker
        count := st.count + 1 }
  | _ => st

/-- The implicit schema that belongs to an object: `CreateUuidWithMainObject` with
`kUuidImplicitSchemaFlag` and `kImplicitSchemaSeed` (deep_clone.cc:487-490). -/
def implicitOf (o : ObjectId) : ObjectId := computeUuObjId H kUuidImplicitSchemaFlag implicitSeed o

/-- `PrevisitItemWithImplicitSchema` (deep_clone.cc:472-493). The entry of the schema is made
first, with the allocation `AllocationId()`. Without an id the code stops at a failed check. -/
def previsitImplicit (st : State) (x : Item) (T : ObjectId) : Except Err State :=
  match findAlloc (AllocationId.ofObject T) st.tracker with
  | some _ => .ok st
  | none => match x with
    | .object o =>
      match tracked ((AllocationId.ofObject T, ⟨⟨0, 0, 0, 0⟩⟩) :: st.tracker) o with
      | none => .error .untracked
      | some p => .ok { st with
          tracker := (AllocationId.ofObject T, AllocationId.ofObject (implicitOf H p)) ::
            st.tracker }
    | _ => .error .unsupported

/-- `CloneAsExplicitSchema` (deep_clone.cc:519-528). -/
def cloneAsExplicit (st : State) (o : ObjectId) : State :=
  match findAlloc (AllocationId.ofObject o) st.tracker with
  | some _ => st
  | none =>
    { st with
      tracker := (AllocationId.ofObject o, newSchemas alloc st.count (AllocationId.ofObject o)) ::
        st.tracker
      count := st.count + 1 }

/-- `PrevisitSchema` (deep_clone.cc:495-517), for slices that are not slices of schemas. -/
def previsitSchema (st : State) : Item → Bool × State
  | .object o =>
    if o.isImplicitSchema then (true, st)
    else (false, { st with explicit := st.explicit ++ [o] })
  | _ => (true, st)

/-- `Previsit` (deep_clone.cc:184-224). -/
def clonePrevisit (st : State) (src : Pair) (_key : Option Key) (p : Pair) :
    Except Err (Bool × State) :=
  if p.2 = kSchema then .ok (previsitSchema st p.1)
  else if p.2 = kObject ∧ src.2 = kSchema then .error .unsupported
  else match p.2 with
    | .object T =>
      if T.isImplicitSchema then
        match previsitImplicit H st p.1 T with
        | .error e => .error e
        | .ok st => .ok (true, st)
      else .ok (true, previsitObject alloc st p.1)
    | .dtype n => if Item.dtype n = kObject then .ok (true, previsitObject alloc st p.1)
      else .ok (true, st)
    | _ => .error .unsupported

/-- `GetValue` and `GetValueImpl` (deep_clone.cc:311-326, 414-446). Without schema slices and
metadata there are no derived ids to resolve, and ids of `nofollow` schemas, which are explicit
schemas, are returned as they are. -/
def cloneGetValue (st : State) (x s : Item) : Except Err (Item × State) :=
  match x with
  | .object o =>
    if s = kItemId then .ok (x, st)
    else if o.isSchema && !o.isImplicitSchema then .ok (x, st)
    else match tracked st.tracker o with
      | some p => .ok (.object p, st)
      | none =>
        if o.isImplicitSchema then
          match tracked (cloneAsExplicit alloc st o).tracker o with
          | some p => .ok (.object p, cloneAsExplicit alloc st o)
          | none => .error .untracked
        else .error .untracked
  | _ => .ok (x, st)

/-- The part that all the functions for items begin with: the new id, and for objects the
schema (deep_clone.cc:332-335, 355-358, 369-372 and `SetSchemaAttr`, 548-554). -/
def cloneId (st : State) (x s : Item) (isObject : Bool) : Except Err (ObjectId × State) :=
  match cloneGetValue alloc st x s with
  | .error e => .error e
  | .ok (.object o, st) =>
    if isObject then
      match cloneGetValue alloc st s kSchema with
      | .error e => .error e
      | .ok (s', st) => .ok (o, { st with bag := st.bag.setAttr o schemaAttrName s' })
    else .ok (o, st)
  | .ok _ => .error .unsupported

/-- `VisitList` (deep_clone.cc:328-348). -/
def cloneVisitList (st : State) (x s : Item) (isObject : Bool) (items : List Item) :
    Except Err State :=
  match cloneId alloc st x s isObject with
  | .error e => .error e
  | .ok (o, st) =>
    if !o.isList then .error .notList
    else if (st.bag.list o).length ≠ 0 then
      (if items.length ≠ (st.bag.list o).length then .error .cyclicList else .ok st)
    else .ok { st with bag := st.bag.extend o items }

/-- `VisitDict` (deep_clone.cc:350-362). -/
def cloneVisitDict (st : State) (x s : Item) (isObject : Bool) (items : List (Item × Item)) :
    Except Err State :=
  match cloneId alloc st x s isObject with
  | .error e => .error e
  | .ok (o, st) =>
    if !o.isDict then .error .notDict else .ok { st with bag := st.bag.setKeys o items }

/-- The loop over the attributes (deep_clone.cc:375-389). -/
def setFields (x o : ObjectId) (isSchema : Bool) : NewBag → List (Name × Item) → NewBag
  | g, [] => g
  | g, (n, v) :: rest =>
    if isSchema then
      (if x ≠ o ∧ n = nameName then setFields x o isSchema g rest
      else setFields x o isSchema (g.setSchemaAttr o n v) rest)
    else setFields x o isSchema (g.setAttr o n v) rest

/-- `VisitObject` and `VisitSchema` (deep_clone.cc:364-398). -/
def cloneVisitObject (st : State) (x s : Item) (isObject : Bool) (fs : List (Name × Item)) :
    Except Err State :=
  match x with
  | .object y =>
    match cloneId alloc st x s isObject with
    | .error e => .error e
    | .ok (o, st) => .ok { st with bag := setFields y o (s = kSchema) st.bag fs }
  | _ => .error .unsupported

/-- `DeepCloneVisitor` (deep_clone.cc:173-564). -/
def cloneVisitor : Visitor State where
  previsit := clonePrevisit H alloc
  getValue := cloneGetValue alloc
  visitList := cloneVisitList alloc
  visitDict := cloneVisitDict alloc
  visitObject := cloneVisitObject alloc
  visitSchema := cloneVisitObject alloc

/-- The items of the result (deep_clone.cc:576-581). -/
def resultItems (s : Item) : State → List Item → Except Err (List Item × State)
  | st, [] => .ok ([], st)
  | st, x :: rest => match cloneGetValue alloc st x s with
    | .error e => .error e
    | .ok (y, st) => match resultItems s st rest with
      | .error e => .error e
      | .ok (ys, st) => .ok (y :: ys, st)

/-- `DeepCloneOp` (deep_clone.cc:568-597), for slices that are not slices of schemas. The
number bounds the iterations of the walk. -/
def deepClone (b : Bag) (fuel : Nat) (ds : List Item) (s : Item) :
    Option (Except Err (List Item × State)) :=
  if s = kSchema then some (.error .unsupported)
  else match traverseSlice (cloneVisitor H alloc) b fuel State.start ds s with
    | none => none
    | some (.error e) => some (.error e)
    | some (.ok st) => some (resultItems alloc s st ds)

end

end Verif.Clone
