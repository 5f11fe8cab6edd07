import Verif.Uuid.Model

/-!
Model of the walk over the data of a bag that the recursive operators share,
`koladata/internal/op_utils/traverse_helper.h` and `traverser.h`, and of `kd.deep_uuid`,
`koladata/internal/op_utils/deep_uuid.cc`.

The bag is given by what its read functions return (with fallbacks already looked at; the
read functions themselves are modelled in `Verif.BagAttr`, `Verif.Dict`, `Verif.DataList`).
Error messages are not modelled, only which check failed. Cancellation is not modelled.
-/

namespace Verif.Traverse

open Verif.ObjectId
open Verif.Uuid

/-- An attribute name. -/
abbrev Name := Bytes

/-- An item with its schema (`ItemWithSchema`, traverser.h:181-184). -/
abbrev Pair := Item × Item

/-- The check that failed. -/
inductive Err where
  | primitiveType | primitiveAttr | badSchema | missingAttr | missingObjSchema | notList | notDict
  | unexpectedAttrs | unsupported | cyclicList | cyclicDict | cyclicObject | untracked | seed
deriving DecidableEq, Repr

/-- What a `DataBagImpl` with its fallbacks returns. -/
structure Bag where
  /-- `GetAttr` (data_bag.cc:812-825): missing when the attribute is unset or removed. -/
  attr : ObjectId → Name → Item
  /-- The items of a list (data_bag.cc:1968-1982). -/
  list : ObjectId → List Item
  /-- The keys of a dict with their values, in the order of `GetDictKeys` and
  `GetDictValues` (data_bag.cc:2626-2651). -/
  dict : ObjectId → List (Item × Item)
  /-- The attributes of a schema that have a value, in the order of
  `GetPresentSchemaAttrs` (data_bag.cc:2784-2829). -/
  schemaAttrs : ObjectId → List (Name × Item)

/-- "__schema__" (schema_attrs.h:25). -/
def schemaAttrName : Name := chars ['_', '_', 's', 'c', 'h', 'e', 'm', 'a', '_', '_']
/-- "__items__" (schema_attrs.h:30). -/
def itemsName : Name := chars ['_', '_', 'i', 't', 'e', 'm', 's', '_', '_']
/-- "__keys__" (schema_attrs.h:32). -/
def keysName : Name := chars ['_', '_', 'k', 'e', 'y', 's', '_', '_']
/-- "__values__" (schema_attrs.h:34). -/
def valuesName : Name := chars ['_', '_', 'v', 'a', 'l', 'u', 'e', 's', '_', '_']
/-- "__schema_name__" (schema_attrs.h:36). -/
def nameName : Name :=
  chars ['_', '_', 's', 'c', 'h', 'e', 'm', 'a', '_', 'n', 'a', 'm', 'e', '_', '_']
/-- "__schema_metadata__" (schema_attrs.h:38). -/
def metadataName : Name :=
  chars ['_', '_', 's', 'c', 'h', 'e', 'm', 'a', '_', 'm', 'e', 't', 'a', 'd', 'a', 't', 'a', '_', '_']

/-- The dtype STRING (dtype.h:96-97). -/
def kString : Item := .dtype 7
/-- The dtype ITEMID (dtype.h:101-102). -/
def kItemId : Item := .dtype 10
/-- The dtype OBJECT (dtype.h:103-104). -/
def kObject : Item := .dtype 11
/-- The dtype SCHEMA (dtype.h:105-106). -/
def kSchema : Item := .dtype 12

/-- `is_primitive_schema` (data_item.h:148-151, dtype.h:64-67, 196-198): the first nine
dtypes. -/
def isPrimitiveSchema : Item → Bool
  | .dtype n => decide (n.val < 9)
  | _ => false

/-- `holds_value<ObjectId>()`. -/
def holdsId : Item → Bool
  | .object _ => true
  | _ => false

/-- `holds_value<schema::DType>()`. -/
def holdsDType : Item → Bool
  | .dtype _ => true
  | _ => false

/-- The dtype whose values have the type of an item: `DType::qtype() == dtype()`
(dtype.h:79-111). -/
def typeOf : Item → Option (Fin 14)
  | .missing => none
  | .object _ => none
  | .int64 _ => some 0
  | .int32 _ => some 1
  | .float32 _ => some 2
  | .float64 _ => some 3
  | .bool _ => some 4
  | .unit => some 5
  | .bytes _ => some 6
  | .text _ => some 7
  | .expr _ => some 8
  | .dtype _ => none

/-- `ItemToSchemaObjectId` (data_bag.cc:176-184). -/
def toSchemaId : Item → Except Err ObjectId
  | .object o => if o.isSchema then .ok o else .error .badSchema
  | _ => .error .badSchema

/-- `GetAttr` of an item (data_bag.cc:812-825). -/
def getAttr (b : Bag) (x : Item) (n : Name) : Except Err Item :=
  match x with
  | .object o => .ok (b.attr o n)
  | .missing => .ok .missing
  | _ => .error .primitiveAttr

/-- `GetObjSchemaAttr` (data_bag.cc:827-838). -/
def getObjectSchema (b : Bag) (x : Item) : Except Err Item :=
  match getAttr b x schemaAttrName with
  | .error e => .error e
  | .ok s => if s ≠ .missing ∨ x = .missing then .ok s else .error .missingObjSchema

/-- The value stored for a name. -/
def lookup (n : Name) : List (Name × Item) → Option Item
  | [] => none
  | (m, v) :: rest => if m = n then some v else lookup n rest

/-- `GetSchemaAttr` (data_bag.cc:2838-2864). -/
def getSchemaAttr (b : Bag) (s : Item) (n : Name) : Except Err Item :=
  match s with
  | .missing => .ok .missing
  | _ => match toSchemaId s with
    | .error e => .error e
    | .ok o => match lookup n (b.schemaAttrs o) with
      | none => .error .missingAttr
      | some v => .ok v

/-- `GetPresentSchemaAttrs` (data_bag.cc:2784-2829). -/
def presentSchemaAttrs (b : Bag) (s : Item) : Except Err (List Name) :=
  match s with
  | .missing => .ok []
  | _ => match toSchemaId s with
    | .error e => .error e
    | .ok o => .ok ((b.schemaAttrs o).map (·.1))

/-- `ExplodeList` (data_bag.cc:1968-1982). -/
def explodeList (b : Bag) : Item → Except Err (List Item)
  | .missing => .ok []
  | .object o => if o.isList then .ok (b.list o) else .error .notList
  | _ => .error .notList

/-- `GetDictKeys` and `GetDictValues` (data_bag.cc:2626-2651). -/
def dictItems (b : Bag) : Item → Except Err (List (Item × Item))
  | .missing => .ok []
  | .object o => if o.isDict then .ok (b.dict o) else .error .notDict
  | _ => .error .notDict

/-- `TransitionsSet` (traverse_helper.h:243-407). `CreateForObject` and `CreateEmpty` make
the same set. -/
inductive Transitions where
  | none
  | list (itemSchema : Item) (items : List Item)
  | dict (keySchema valueSchema : Item) (items : List (Item × Item))
  | entity (names : List Name)
  | schema (names : List Name)
deriving DecidableEq, Repr

/-- `TransitionKey` (traverse_helper.h:112-121), with the types used by the traverser. -/
inductive Key where
  | listItem (i : Nat)
  | dictKey (i : Nat) (key : Item)
  | dictValue (i : Nat) (key : Item)
  | attr (n : Name)
  | schemaAttr (n : Name)
  | objectSchema
  | schema
  | sliceItem (i : Nat)
deriving DecidableEq, Repr

/-- `is_special_attr` (traverse_helper.h:692-695). -/
def isSpecial (n : Name) : Bool := n == nameName || n == metadataName

/-- `ListTransitions` (traverse_helper.h:646-656). -/
def listTransitions (b : Bag) (x s : Item) : Except Err Transitions :=
  match getSchemaAttr b s itemsName with
  | .error e => .error e
  | .ok t => match explodeList b x with
    | .error e => .error e
    | .ok l => .ok (.list t l)

/-- `DictTransitions` (traverse_helper.h:658-673). -/
def dictTransitions (b : Bag) (x s : Item) : Except Err Transitions :=
  match getSchemaAttr b s keysName with
  | .error e => .error e
  | .ok kt => match getSchemaAttr b s valuesName with
    | .error e => .error e
    | .ok vt => match dictItems b x with
      | .error e => .error e
      | .ok l => .ok (.dict kt vt l)

/-- `EntityTransitions` (traverse_helper.h:675-747). -/
def entityTransitions (b : Bag) (x : Item) (s : Item) (removeSpecial : Bool) :
    Except Err Transitions :=
  match s with
  | .object o =>
    if o.isNoFollowSchema then .ok .none
    else match presentSchemaAttrs b s with
      | .error e => .error e
      | .ok names =>
        if names = [] then .ok .none
        else if itemsName ∈ names then
          (if names.length ≠ 1 then .error .unexpectedAttrs else listTransitions b x s)
        else if keysName ∈ names ∨ valuesName ∈ names then
          (if names.length ≠ 2 ∨ keysName ∉ names ∨ valuesName ∉ names then
            .error .unexpectedAttrs
          else dictTransitions b x s)
        else if !removeSpecial || (names.filter isSpecial).length = 0 then .ok (.entity names)
        else if (names.filter isSpecial).length = names.length then .ok .none
        else .ok (.entity (names.filter (fun n => !isSpecial n)))
  | _ => .error .badSchema

/-- `SchemaTransitions` (traverse_helper.h:749-768). -/
def schemaTransitions (b : Bag) (x : Item) : Except Err Transitions :=
  match x with
  | .object o =>
    if o.isNoFollowSchema then .ok .none
    else match presentSchemaAttrs b x with
      | .error e => .error e
      | .ok names => if names = [] then .ok .none else .ok (.schema names)
  | _ => .ok .none

/-- `GetTransitions` (traverse_helper.h:414-430). -/
def getTransitions (b : Bag) (x s : Item) (removeSpecial : Bool) : Except Err Transitions :=
  if holdsId s then entityTransitions b x s removeSpecial
  else if holdsDType s then
    (if s = kObject then .ok .none
    else if s = kSchema then schemaTransitions b x
    else .ok .none)
  else .error .unsupported

/-- `AttributeTransition` (traverse_helper.h:503-512). -/
def attributeTransition (b : Bag) (x s : Item) (n : Name) : Except Err Pair :=
  match getAttr b x n with
  | .error e => .error e
  | .ok v => match getSchemaAttr b s n with
    | .error e => .error e
    | .ok t => .ok (v, t)

/-- `GetSchemaAttrSchema` (traverse_helper.h:540-547). -/
def schemaOfSchemaAttr (n : Name) : Item :=
  if n = nameName then kString else if n = metadataName then kObject else kSchema

/-- `SchemaAttributeTransition` (traverse_helper.h:515-521). -/
def schemaAttributeTransition (b : Bag) (s : Item) (n : Name) : Except Err Pair :=
  match getSchemaAttr b s n with
  | .error e => .error e
  | .ok t => .ok (t, schemaOfSchemaAttr n)

/-- `ForEachListItemObject` (traverse_helper.h:549-563): the calls of the function, from
position `i` on. -/
def listCalls (t : Item) : Nat → List Item → List (Key × Pair)
  | _, [] => []
  | i, x :: rest =>
    (if holdsId x then [(Key.listItem i, (x, t))] else []) ++ listCalls t (i + 1) rest

/-- The keys of `ForEachDictElementObject` (traverse_helper.h:568-579). -/
def dictKeyCalls (t : Item) : Nat → List (Item × Item) → List (Key × Pair)
  | _, [] => []
  | i, x :: rest =>
    (if holdsId x.1 then [(Key.dictKey i x.1, (x.1, t))] else []) ++ dictKeyCalls t (i + 1) rest

/-- The values of `ForEachDictElementObject` (traverse_helper.h:580-594). -/
def dictValueCalls (t : Item) : Nat → List (Item × Item) → List (Key × Pair)
  | _, [] => []
  | i, x :: rest =>
    (if holdsId x.2 then [(Key.dictValue i x.1, (x.2, t))] else []) ++
      dictValueCalls t (i + 1) rest

/-- `ForEachSchemaAttributeObject` (traverse_helper.h:597-617). -/
def schemaAttrCalls (b : Bag) (x : Item) : List Name → Except Err (List (Key × Pair))
  | [] => .ok []
  | n :: rest =>
    match schemaAttributeTransition b x n with
    | .error e => .error e
    | .ok p => match schemaAttrCalls b x rest with
      | .error e => .error e
      | .ok l => .ok ((if holdsId p.1 || holdsDType p.1 then [(Key.schemaAttr n, p)] else []) ++ l)

/-- `ForEachAttributeObject` (traverse_helper.h:619-644). -/
def attrCalls (b : Bag) (x s : Item) : List Name → Except Err (List (Key × Pair))
  | [] => .ok []
  | n :: rest =>
    if isSpecial n then attrCalls b x s rest
    else match attributeTransition b x s n with
      | .error e => .error e
      | .ok p => match attrCalls b x s rest with
        | .error e => .error e
        | .ok l => .ok ((if holdsId p.1 then [(Key.attr n, p)] else []) ++ l)

/-- `ForEachObject` (traverse_helper.h:436-460): the calls of the function. -/
def forEachObject (b : Bag) (x s : Item) : Transitions → Except Err (List (Key × Pair))
  | t =>
    if s = kObject then
      match getObjectSchema b x with
      | .error e => .error e
      | .ok os => .ok (if holdsId os then [(Key.objectSchema, (x, os))] else [])
    else match t with
      | .none => .ok []
      | .list it l => .ok (if isPrimitiveSchema it then [] else listCalls it 0 l)
      | .dict kt vt l =>
        .ok ((if isPrimitiveSchema kt then [] else dictKeyCalls kt 0 l) ++
          (if isPrimitiveSchema vt then [] else dictValueCalls vt 0 l))
      | .schema names => schemaAttrCalls b x names
      | .entity names => attrCalls b x s names

/-- `AbstractVisitor` (traverser.h:46-128) with its state. -/
structure Visitor (V : Type) where
  previsit : V → Pair → Option Key → Pair → Except Err (Bool × V)
  getValue : V → Item → Item → Except Err (Item × V)
  visitList : V → Item → Item → Bool → List Item → Except Err V
  visitDict : V → Item → Item → Bool → List (Item × Item) → Except Err V
  visitObject : V → Item → Item → Bool → List (Name × Item) → Except Err V
  visitSchema : V → Item → Item → Bool → List (Name × Item) → Except Err V

/-- `ValidatePrimitiveType` (traverser.h:186-205), for a pair with a primitive schema. -/
def validatePrimitive (p : Pair) : Except Err Unit :=
  if p.1 = .missing then .ok ()
  else if (typeOf p.1).map Item.dtype = some p.2 then .ok ()
  else .error .primitiveType

/-- The state of the depth first search: `previsit_stack_`, `objects_on_stack`,
`used_items`, `topological_order_` (traverser.h:230-232, 454-456) and the visitor. The top
of a stack is the head of the list. -/
structure Dfs (V : Type) where
  stack : List Pair
  onStack : List (Nat × Pair)
  used : List Pair
  order : List Pair
  v : V

section
variable {V : Type} (w : Visitor V) (b : Bag)

/-- `Previsit` (traverser.h:207-223). -/
def previsit (d : Dfs V) (src : Pair) (key : Option Key) (p : Pair) : Except Err (Dfs V) :=
  match (if isPrimitiveSchema p.2 then validatePrimitive p else .ok ()) with
  | .error e => .error e
  | .ok _ => match w.previsit d.v src key p with
    | .error e => .error e
    | .ok (should, v) =>
      if should && holdsId p.1 then .ok { d with stack := p :: d.stack, v := v }
      else .ok { d with v := v }

/-- A sequence of calls of `Previsit`. -/
def previsitAll (src : Pair) : Dfs V → List (Key × Pair) → Except Err (Dfs V)
  | d, [] => .ok d
  | d, (k, p) :: rest => match previsit w d src (some k) p with
    | .error e => .error e
    | .ok d' => previsitAll src d' rest

/-- The loop that moves the finished items to the order (traverser.h:291-295). -/
def flush (n : Nat) : List (Nat × Pair) → List Pair → List (Nat × Pair) × List Pair
  | [], order => ([], order)
  | (m, p) :: rest, order => if m = n then flush n rest (order ++ [p]) else ((m, p) :: rest, order)

/-- The end of an iteration (traverser.h:289-295). -/
def finish (d : Dfs V) : Dfs V :=
  let r := flush d.stack.length d.onStack d.order
  { d with onStack := r.1, order := r.2 }

/-- The processing of an item that was not seen before, with its own schema
(traverser.h:261-287). -/
def expand (d : Dfs V) (x s : Item) : Except Err (Dfs V) :=
  match (if x ≠ kSchema ∨ s ≠ kSchema then previsit w d (x, s) (some .schema) (s, kSchema)
    else .ok d) with
  | .error e => .error e
  | .ok d => match getTransitions b x s false with
    | .error e => .error e
    | .ok t => match forEachObject b x s t with
      | .error e => .error e
      | .ok calls => previsitAll w (x, s) d calls

/-- One iteration of the loop of `DepthFirstPrevisitItemsAndSchemas`
(traverser.h:234-296), for a stack that is not empty. -/
def dfsStep (d : Dfs V) : Except Err (Dfs V) :=
  match d.stack with
  | [] => .ok d
  | p :: rest =>
    if p ∈ d.used then .ok (finish { d with stack := rest })
    else
      let d := { d with stack := rest, onStack := (rest.length, p) :: d.onStack,
                        used := p :: d.used }
      if p.2 = kObject then
        match getObjectSchema b p.1 with
        | .error e => .error e
        | .ok s => match w.previsit d.v (p.1, kObject) (some .objectSchema) (p.1, s) with
          | .error e => .error e
          | .ok (should, v) =>
            if !should then .ok { d with v := v }
            else match expand w b { d with v := v } p.1 s with
              | .error e => .error e
              | .ok d => .ok (finish d)
      else match expand w b d p.1 p.2 with
        | .error e => .error e
        | .ok d => .ok (finish d)

/-- `DepthFirstPrevisitItemsAndSchemas` (traverser.h:225-298). The number bounds the
iterations: `none` means that the loop is not over yet. -/
def dfs : Nat → Dfs V → Option (Except Err (Dfs V))
  | 0, d => if d.stack = [] then some (.ok d) else none
  | n + 1, d => if d.stack = [] then some (.ok d) else
    match dfsStep w b d with
    | .error e => some (.error e)
    | .ok d => dfs n d

/-- `GetValue` (traverser.h:300-306). -/
def getValue (v : V) (p : Pair) : Except Err (Item × V) :=
  match (if isPrimitiveSchema p.2 then validatePrimitive p else .ok ()) with
  | .error e => .error e
  | .ok _ => w.getValue v p.1 p.2

/-- The values of the items of a list (traverser.h:355-358). -/
def listValues (t : Item) : V → List Item → Except Err (List Item × V)
  | v, [] => .ok ([], v)
  | v, x :: rest => match getValue w v (x, t) with
    | .error e => .error e
    | .ok (y, v) => match listValues t v rest with
      | .error e => .error e
      | .ok (ys, v) => .ok (y :: ys, v)

/-- The values of the keys and values of a dict (traverser.h:372-378). -/
def dictValues (kt vt : Item) : V → List (Item × Item) → Except Err (List (Item × Item) × V)
  | v, [] => .ok ([], v)
  | v, (k, x) :: rest => match getValue w v (k, kt) with
    | .error e => .error e
    | .ok (k', v) => match getValue w v (x, vt) with
      | .error e => .error e
      | .ok (x', v) => match dictValues kt vt v rest with
        | .error e => .error e
        | .ok (ys, v) => .ok ((k', x') :: ys, v)

/-- The values of the attributes (traverser.h:323-344, 398-420): `tr` gives the transition
of a name. -/
def attrValues (tr : Name → Except Err Pair) : V → List Name → Except Err (List (Name × Item) × V)
  | v, [] => .ok ([], v)
  | v, n :: rest => match tr n with
    | .error e => .error e
    | .ok p => match getValue w v p with
      | .error e => .error e
      | .ok (y, v) => match attrValues tr v rest with
        | .error e => .error e
        | .ok (ys, v) => .ok ((n, y) :: ys, v)

/-- `VisitSchemaItem` (traverser.h:308-348). -/
def visitSchemaItem (v : V) (x s : Item) : Except Err V :=
  if !holdsId x then .ok v
  else match getTransitions b x s true with
    | .error e => .error e
    | .ok (.schema names) =>
      match attrValues w (schemaAttributeTransition b x) v names with
      | .error e => .error e
      | .ok (fs, v) => w.visitSchema v x s false fs
    | .ok _ => w.visitSchema v x s false []

/-- `VisitEntity` with `VisitList` and `VisitDict` (traverser.h:350-424). A set of
transitions of a schema has attributes, so it is read like that of an entity. -/
def visitEntity (v : V) (x s : Item) (isObject : Bool) : Except Err V :=
  match getTransitions b x s true with
  | .error e => .error e
  | .ok (.list t l) => match listValues w t v l with
    | .error e => .error e
    | .ok (ys, v) => w.visitList v x s isObject ys
  | .ok (.dict kt vt l) => match dictValues w kt vt v l with
    | .error e => .error e
    | .ok (ys, v) => w.visitDict v x s isObject ys
  | .ok .none => w.visitObject v x s isObject []
  | .ok (.entity names) => match attrValues w (attributeTransition b x s) v names with
    | .error e => .error e
    | .ok (fs, v) => w.visitObject v x s isObject fs
  | .ok (.schema names) => match attrValues w (attributeTransition b x s) v names with
    | .error e => .error e
    | .ok (fs, v) => w.visitObject v x s isObject fs

/-- `VisitObject` (traverser.h:426-432). -/
def visitObjectItem (v : V) (x : Item) : Except Err V :=
  if !holdsId x then .ok v
  else match getObjectSchema b x with
    | .error e => .error e
    | .ok s => visitEntity w b v x s true

/-- One iteration of `VisitInPostOrder` (traverser.h:435-448). -/
def visitOne (v : V) (p : Pair) : Except Err V :=
  if holdsId p.2 then visitEntity w b v p.1 p.2 false
  else if p.2 = kObject then visitObjectItem w b v p.1
  else if p.2 = kSchema then visitSchemaItem w b v p.1 p.2
  else .ok v

/-- `VisitInPostOrder` (traverser.h:434-450). -/
def visitInPostOrder : V → List Pair → Except Err V
  | v, [] => .ok v
  | v, p :: rest => match visitOne w b v p with
    | .error e => .error e
    | .ok v => visitInPostOrder v rest

/-- The calls of `Previsit` for the items of the slice (traverser.h:165-171). -/
def rootCalls (s : Item) : Nat → List Item → List (Key × Pair)
  | _, [] => []
  | i, x :: rest => (Key.sliceItem i, (x, s)) :: rootCalls s (i + 1) rest

/-- The state before the depth first search (traverser.h:160-174). -/
def initDfs (v : V) (ds : List Item) (s : Item) : Except Err (Dfs V) :=
  match previsit w ⟨[], [], [], [], v⟩ (.missing, .missing) none (s, kSchema) with
  | .error e => .error e
  | .ok d => previsitAll w (.missing, .missing) d (rootCalls s 0 ds)

/-- `TraverseSlice` (traverser.h:159-178). -/
def traverseSlice (fuel : Nat) (v : V) (ds : List Item) (s : Item) : Option (Except Err V) :=
  match initDfs w v ds s with
  | .error e => some (.error e)
  | .ok d => match dfs w b fuel d with
    | none => none
    | some (.error e) => some (.error e)
    | some (.ok d) => some (visitInPostOrder w b d.v d.order)

end

/-! ### deep_uuid -/

/-- "__self_reference_placeholder__" (deep_uuid.cc:50-51). -/
def selfReference : Item := .text (chars ['_', '_', 's', 'e', 'l', 'f', '_', 'r', 'e', 'f', 'e', 'r',
  'e', 'n', 'c', 'e', '_', 'p', 'l', 'a', 'c', 'e', 'h', 'o', 'l', 'd', 'e', 'r', '_', '_'])

/-- `object_tracker_` and `untracked_objects_` (deep_uuid.cc:230-231). Only ids are ever
put into them. -/
structure Track where
  tracked : List (ObjectId × Item)
  untracked : List ObjectId

/-- `find` in `object_tracker_`. -/
def findTracked (o : ObjectId) : List (ObjectId × Item) → Option Item
  | [] => none
  | (p, u) :: rest => if p = o then some u else findTracked o rest

/-- `emplace` in `object_tracker_`: the first value stays. -/
def emplaceTracked (o : ObjectId) (u : Item) (l : List (ObjectId × Item)) :
    List (ObjectId × Item) :=
  match findTracked o l with
  | none => l ++ [(o, u)]
  | some _ => l

/-- `untracked_objects_.contains`. -/
def isUntracked (t : Track) : Item → Bool
  | .object o => decide (o ∈ t.untracked)
  | _ => false

/-- `emplace` of the uuid of an item, and `erase` (deep_uuid.cc:109-110, 133-134, 170-171,
207-208). -/
def setTracked (t : Track) (x : Item) (u : ObjectId) : Track :=
  match x with
  | .object o =>
    { tracked := emplaceTracked o (.object u) t.tracked
      untracked := t.untracked.filter (fun p => p ≠ o) }
  | _ => t

/-- `GetValue` (deep_uuid.cc:64-78). -/
def uuidGetValue (t : Track) (x s : Item) : Except Err (Item × Track) :=
  match x with
  | .object o =>
    if s = kItemId then .ok (x, t)
    else match findTracked o t.tracked with
      | none => .ok (x, { t with untracked := o :: t.untracked })
      | some u => .ok (u, t)
  | _ => .ok (x, t)

/-- `GetValueSafe` (deep_uuid.cc:80-96). -/
def uuidGetValueSafe (t : Track) (x s : Item) : Except Err Item :=
  match x with
  | .object o =>
    if s = kItemId then .ok x
    else match findTracked o t.tracked with
      | none => .error .untracked
      | some u => .ok u
  | _ => .ok x

section
variable {S : Type} (H : HashFn S) (seed : Bytes)

/-- `VisitList` (deep_uuid.cc:98-112). -/
def uuidVisitList (t : Track) (x _s : Item) (_isObject : Bool) (items : List Item) :
    Except Err Track :=
  if items.any (isUntracked t) then .error .cyclicList
  else .ok (setTracked t x (listUuid H seed items []))

/-- `VisitDict` (deep_uuid.cc:114-136). -/
def uuidVisitDict (t : Track) (x _s : Item) (_isObject : Bool) (items : List (Item × Item)) :
    Except Err Track :=
  if (items.map (·.1)).any (isUntracked t) then .error .cyclicDict
  else if (items.map (·.2)).any (isUntracked t) then .error .cyclicDict
  else .ok (setTracked t x (dictUuid H seed items []))

/-- The values of the fields with references to the object itself replaced
(deep_uuid.cc:148-164, 184-198); `none` when another untracked object is among them. -/
def replaceSelf (t : Track) (x : Item) : List (Name × Item) → Option (List (Name × Item))
  | [] => some []
  | (n, y) :: rest =>
    if isUntracked t y then
      (if y = x then (replaceSelf t x rest).map ((n, selfReference) :: ·) else none)
    else (replaceSelf t x rest).map ((n, y) :: ·)

/-- `VisitObject` (deep_uuid.cc:138-173). -/
def uuidVisitObject (t : Track) (x _s : Item) (_isObject : Bool) (fs : List (Name × Item)) :
    Except Err Track :=
  match replaceSelf t x fs with
  | none => .error .cyclicObject
  | some fs => .ok (setTracked t x (uuidFromFields H seed fs .default))

/-- `VisitSchema` (deep_uuid.cc:175-210). -/
def uuidVisitSchema (t : Track) (x _s : Item) (_isObject : Bool) (fs : List (Name × Item)) :
    Except Err Track :=
  match replaceSelf t x fs with
  | none => .ok (match x with
    | .object o => { t with untracked := o :: t.untracked }
    | _ => t)
  | some fs => .ok (setTracked t x (schemaUuid H seed fs))

/-- `DeepUuidVisitor` (deep_uuid.cc:49-232). -/
def uuidVisitor : Visitor Track where
  previsit := fun t _ _ _ => .ok (true, t)
  getValue := uuidGetValue
  visitList := uuidVisitList H seed
  visitDict := uuidVisitDict H seed
  visitObject := uuidVisitObject H seed
  visitSchema := uuidVisitSchema H seed

/-- The uuid of a value that is not an id (deep_uuid.cc:255-263). `seeded` is
`FingerprintHasher(seed).Combine(fingerprint).Finish()` of arolla. -/
def wrapUuid (seeded : Bytes → BitVec 128 → BitVec 128) (s u : Item) : Item :=
  if !holdsId u && s ≠ kItemId then
    .object (createUuidObject
      (if seed = [] then stableFingerprint H u else seeded seed (stableFingerprint H u)) .default)
  else u

/-- The result for every item of the slice (deep_uuid.cc:251-266). -/
def uuidResults (seeded : Bytes → BitVec 128 → BitVec 128) (t : Track) (s : Item) :
    List Item → Except Err (List Item)
  | [] => .ok []
  | x :: rest => match uuidGetValueSafe t x s with
    | .error e => .error e
    | .ok u => match uuidResults seeded t s rest with
      | .error e => .error e
      | .ok us => .ok (wrapUuid H seed seeded s u :: us)

end

/-- The seed (deep_uuid.cc:239-247): a missing seed is the empty string. -/
def seedOf : Item → Except Err Bytes
  | .missing => .ok []
  | .text s => .ok s
  | _ => .error .seed

/-- `DeepUuidOp` (deep_uuid.cc:236-267). -/
def deepUuid {S : Type} (H : HashFn S) (seeded : Bytes → BitVec 128 → BitVec 128) (b : Bag)
    (fuel : Nat) (seed : Item) (ds : List Item) (s : Item) : Option (Except Err (List Item)) :=
  match seedOf seed with
  | .error e => some (.error e)
  | .ok seed =>
    match traverseSlice (uuidVisitor H seed) b fuel ⟨[], []⟩ ds s with
    | none => none
    | some (.error e) => some (.error e)
    | some (.ok t) => some (uuidResults H seed seeded t s ds)

end Verif.Traverse
