import Verif.Path.Model
import Verif.Base62.Model

/-!
Model of `/repo/py/koladata/ext/storage/schema_helper.py`, of `get_schema_at` of
`schema_helper_mixin.py`, of `schema_stub` of `stubs_and_minimal_bags_lib.py` and of
`get_subschema_operation` and `get_subschema_bag` of `data_slice_path.py`.

Simplifications. A python string is the list of its characters, a dict the list of its
entries, a set a list. The order in which a set is traversed is the order of the list,
except for `set.pop`, where it is a parameter. `sorted` is left out: what is proved of
`get_schema_bag` holds for every order. Error messages are dropped. The schemas are frozen
and have a bag, so `get_attr` and `kd.dir` on them do not fail.
-/

namespace Verif.SchemaHelper

open Verif.Path

abbrev Name := List Char

/-- Item ids of schemas (`ToRawInt128`, koladata/internal/object_id.h). -/
abbrev Id := BitVec 128

/-- The schemas without item id (koladata/internal/dtype.h:64-71). -/
inductive Dtype where
  | int64 | int32 | float32 | float64 | boolean | mask | bytes | string | expr
  | itemid | object | schema | none
  deriving Repr, DecidableEq

/-- `kDTypeNames` (dtype.h:264-280), which `str` of such a schema gives. -/
def Dtype.str : Dtype → Name
  | .int64 => ['I', 'N', 'T', '6', '4']
  | .int32 => ['I', 'N', 'T', '3', '2']
  | .float32 => ['F', 'L', 'O', 'A', 'T', '3', '2']
  | .float64 => ['F', 'L', 'O', 'A', 'T', '6', '4']
  | .boolean => ['B', 'O', 'O', 'L', 'E', 'A', 'N']
  | .mask => ['M', 'A', 'S', 'K']
  | .bytes => ['B', 'Y', 'T', 'E', 'S']
  | .string => ['S', 'T', 'R', 'I', 'N', 'G']
  | .expr => ['E', 'X', 'P', 'R']
  | .itemid => ['I', 'T', 'E', 'M', 'I', 'D']
  | .object => ['O', 'B', 'J', 'E', 'C', 'T']
  | .schema => ['S', 'C', 'H', 'E', 'M', 'A']
  | .none => ['N', 'O', 'N', 'E']

/-- `is_primitive` (dtype.h:196-198, 64-67). -/
def Dtype.isPrimitive : Dtype → Bool
  | .itemid | .object | .schema | .none => false
  | _ => true

/-- A schema item. -/
inductive Item where
  | struct (id : Id)
  | dtype (d : Dtype)
  deriving Repr, DecidableEq

/-- List, dict and entity schemas, with what they refer to. Simplification: the three are
exclusive; `kd.dir` gives the attributes of an entity in the order of the list. -/
inductive StructKind where
  | list (item : Item)
  | dict (key value : Item)
  | entity (attrs : List (Name × Item))
  deriving Repr, DecidableEq

/-- A value of a metadata attribute: a primitive or anything else. -/
inductive MetaVal where
  | primitive (v : Nat)
  | other (v : Nat)
  deriving Repr, DecidableEq

abbrev Metadata := List (Name × MetaVal)

/-- What a bag says about a schema with item id. -/
structure Struct where
  kind : StructKind
  name : Option Name := .none
  metadata : Option Metadata := .none
  deriving Repr, DecidableEq

/-- The bag of a schema. An id of which it says nothing is an entity schema without
attributes. -/
abbrev Store := List (Id × Struct)

/-- What the bag says about an id. -/
def Store.get (b : Store) (id : Id) : Struct := (b.lookup id).getD { kind := .entity [] }

/-- `is_list_schema`, `is_dict_schema`, `is_entity_schema`, `get_item_schema`, `get_attr`, ...
(koladata/data_slice.cc:1267-1301). -/
def kindOf (b : Store) : Item → Kind Item
  | .dtype _ => .leaf
  | .struct id =>
    match (b.get id).kind with
    | .list item => .list item
    | .dict key value => .dict key value
    | .entity attrs => .entity attrs

/-- The keys of the entries of the bags made here. -/
inductive Key where
  | items | keys | values
  | attr (name : Name)
  | schemaName
  | schemaMetadata
  deriving Repr, DecidableEq

/-- The values of the entries. -/
inductive Val where
  | item (i : Item)
  | text (s : Name)
  | metadata (m : Metadata)
  deriving Repr, DecidableEq

/-- A bag of schema attributes; the first entry counts. -/
abbrev Bag := List ((Id × Key) × Val)

/-- `kd.bags.updated`: the last bag counts (`merge_fallbacks` does not change what a bag
says). -/
def bagsUpdated (bags : List Bag) : Bag := bags.foldl (fun acc b => b ++ acc) []

/-- The exceptions. -/
inductive Err where
  | valueError | keyError | assertionError
  deriving Repr, DecidableEq

/-! ### `stubs_and_minimal_bags_lib.py` -/

/-- `is_primitive` of the schema of the value (line 40). -/
def MetaVal.isPrimitive : MetaVal → Bool
  | .primitive _ => true
  | .other _ => false

/-- `_check_no_non_primitive_metadata_attributes` (lines 29-46). -/
def metadataAllowed (b : Store) : Item → Bool
  | .dtype _ => true
  | .struct id =>
    match (b.get id).metadata with
    | .none => true
    | some m => m.all fun x => x.2.isPrimitive

/-- `schema_stub(schema).get_bag()` (lines 49-78). -/
def schemaStubBag (b : Store) (i : Item) : Except Err Bag :=
  if metadataAllowed b i then
    match i with
    | .dtype _ => .ok []
    | .struct id =>
      let bag : Bag := []
      let bag := match (b.get id).name with
        | .none => bag
        | some n => bagsUpdated [bag, [((id, .schemaName), .text n)]]
      let bag := match (b.get id).metadata with
        | .none => bag
        | some m => bagsUpdated [bag, [((id, .schemaMetadata), .metadata m)]]
      .ok bag
  else .error .valueError

/-! ### `data_slice_path.py` -/

/-- `get_subschema_operation` (lines 148-149, 185-186, 222-223, 339-340). -/
def subschemaOperation (t : Text) : Action → Name
  | .dictGetKeys => ['.', 'g', 'e', 't', '_', 'k', 'e', 'y', '_', 's', 'c', 'h', 'e', 'm', 'a', '(', ')']
  | .dictGetValues => ['.', 'g', 'e', 't', '_', 'v', 'a', 'l', 'u', 'e', '_', 's', 'c', 'h', 'e', 'm', 'a', '(', ')']
  | .listExplode => ['.', 'g', 'e', 't', '_', 'i', 't', 'e', 'm', '_', 's', 'c', 'h', 'e', 'm', 'a', '(', ')']
  | .getAttr n => (Action.getAttr n).toStr t

/-- The attribute that `get_subschema_bag` sets (lines 155, 192, 229, 346). -/
def actionKey : Action → Key
  | .dictGetKeys => .keys
  | .dictGetValues => .values
  | .listExplode => .items
  | .getAttr n => .attr n

/-- `get_subschema_bag` (lines 151-159, 188-196, 225-233, 342-350). `kd.attrs(schema,
name=stub)` holds the attribute and the bag of the stub. -/
def subschemaBag (b : Store) (schema : Item) (a : Action) : Except Err Bag :=
  match subschema (kindOf b) schema a with
  | .none => .error .valueError
  | some child =>
    match schemaStubBag b child with
    | .error e => .error e
    | .ok stub =>
      match schema with
      | .dtype _ => .error .valueError
      | .struct id => .ok (((id, actionKey a), .item child) :: stub)

/-! ### `schema_helper.py` -/

/-- `_get_item_id` (lines 223-227). -/
def getItemId : Item → Option Id
  | .struct id => some id
  | .dtype _ => .none

/-- `kd.encode_itemid(...).to_py()` (koladata/internal/op_utils/itemid.cc:44-55). -/
def encodeId (id : Id) : Name := (Verif.Base62.base62Repr id).map fun c => Char.ofNat c.toNat

/-- `get_schema_node_name_from_schema_having_an_item_id` (lines 230-235). -/
def nodeNameOfStruct (i : Item) : Except Err Name :=
  match getItemId i with
  | .none => .error .assertionError
  | some id => .ok (encodeId id)

/-- `get_schema_node_name` (lines 238-323). -/
def getSchemaNodeName (t : Text) (parent : Option Item) (action : Option Action)
    (child : Item) : Except Err Name :=
  match child with
  | .struct id => .ok (encodeId id)
  | .dtype d =>
    if d.isPrimitive || d == .itemid || d == .none then
      let operation := match action with
        | some a => subschemaOperation t a
        | .none => ['.']
      match parent with
      | .none => .ok (operation ++ ':' :: d.str)
      | some p =>
        match nodeNameOfStruct p with
        | .error e => .error e
        | .ok parentName => .ok (parentName ++ operation ++ ':' :: d.str)
    else .error .valueError

/-- `_get_schema_bag` (lines 326-359). -/
def getSchemaBagOf (b : Store) (parent : Option Item) (action : Option Action) (child : Item) :
    Except Err Bag :=
  match parent, action with
  | .none, .none => schemaStubBag b child
  | some p, some a => subschemaBag b p a
  | _, _ => .error .assertionError

/-- `_NO_PARENT_MARKER` (line 367). -/
def noParentMarker : Name := ['_', '_', 'N', 'O', 'N', 'E', '_', '_']

/-- `_AnalyzeSchemaResult` (lines 370-382). -/
structure Artifacts where
  graph : List (Name × List Name) := []
  schemas : List (Name × Item) := []
  bags : List ((Name × Name) × Bag) := []
  deriving Repr

/-- An entry of `level`. -/
structure Work where
  parent : Option Item
  action : Option Action
  child : Item
  deriving Repr, DecidableEq

/-- `expand_one_step` (lines 412-446). -/
def expandOneStep (b : Store) (i : Item) : List Work :=
  match kindOf b i with
  | .leaf => []
  | .list item => [⟨some i, some .listExplode, item⟩]
  | .dict key value => [⟨some i, some .dictGetKeys, key⟩, ⟨some i, some .dictGetValues, value⟩]
  | .entity attrs => attrs.map fun p => ⟨some i, some (.getAttr p.1), p.2⟩

/-- `d[k] = v`. -/
def dictSet {K V : Type} [BEq K] (d : List (K × V)) (k : K) (v : V) : List (K × V) :=
  if d.any (fun e => e.1 == k) then d.map fun e => if e.1 == k then (k, v) else e
  else d ++ [(k, v)]

/-- `s.add(x)`. -/
def setAdd (s : List Name) (x : Name) : List Name := if s.contains x then s else s ++ [x]

/-- `schema_graph[parent_name].add(child_name)` (line 473). -/
def addEdge (graph : List (Name × List Name)) (parent child : Name) :
    Except Err (List (Name × List Name)) :=
  match graph.lookup parent with
  | .none => .error .keyError
  | some s => .ok (dictSet graph parent (setAdd s child))

/-- The name of the parent of an entry of `level` (lines 463-467). -/
def parentNameOf (w : Work) : Except Err Name :=
  match w.parent with
  | .none => .ok noParentMarker
  | some p => nodeNameOfStruct p

/-- The relationship bag of an entry of `level` (lines 474-489). -/
def addBag (b : Store) (w : Work) (parent child : Name) (bags : List ((Name × Name) × Bag)) :
    Except Err (List ((Name × Name) × Bag)) :=
  match getSchemaBagOf b w.parent w.action w.child with
  | .error e => .error e
  | .ok new =>
    let new := match bags.lookup (parent, child) with
      | .none => new
      | some existing => bagsUpdated [new, existing]
    .ok (dictSet bags (parent, child) new)

/-- The body of the `for` loop (lines 458-498): the artifacts and `new_level`. -/
def processOne (t : Text) (b : Store) (isFirst onlyGraph : Bool) (st : Artifacts × List Work)
    (w : Work) : Except Err (Artifacts × List Work) :=
  match getSchemaNodeName t w.parent w.action w.child with
  | .error e => .error e
  | .ok child =>
  match parentNameOf w with
  | .error e => .error e
  | .ok parent =>
  match if isFirst then .ok st.1.graph else addEdge st.1.graph parent child with
  | .error e => .error e
  | .ok graph =>
  match if onlyGraph then .ok st.1.bags else addBag b w parent child st.1.bags with
  | .error e => .error e
  | .ok bags =>
    if (graph.lookup child).isSome then
      .ok ({ st.1 with
        graph := graph
        bags := bags }, st.2)
    else
      .ok (
        { graph := dictSet graph child []
          schemas := if onlyGraph then st.1.schemas else dictSet st.1.schemas child w.child
          bags := bags },
        st.2 ++ expandOneStep b w.child)

/-- The `for` loop over a level (lines 457-498). -/
def processLevel (t : Text) (b : Store) (isFirst onlyGraph : Bool) :
    List Work → Artifacts × List Work → Except Err (Artifacts × List Work)
  | [], st => .ok st
  | w :: ws, st =>
    match processOne t b isFirst onlyGraph st w with
    | .error e => .error e
    | .ok st' => processLevel t b isFirst onlyGraph ws st'

/-- The `while` loop (lines 453-500), at most `n` levels; `none` if it has not ended. -/
def analyzeLoop (t : Text) (b : Store) (onlyGraph : Bool) :
    Nat → Bool → List Work → Artifacts → Except Err (Option Artifacts)
  | _, _, [], a => .ok (some a)
  | 0, _, _ :: _, _ => .ok .none
  | n + 1, isFirst, w :: ws, a =>
    match processLevel t b isFirst onlyGraph (w :: ws) (a, []) with
    | .error e => .error e
    | .ok (a', next) => analyzeLoop t b onlyGraph n false next a'

/-- `_analyze_schema` (lines 385-505), for `n` levels. -/
def analyzeSchema (t : Text) (b : Store) (n : Nat) (w : Work) (onlyGraph : Bool) :
    Except Err (Option Artifacts) :=
  analyzeLoop t b onlyGraph n true [w] {}

/-- A number of levels that is always enough (`C17_construct`, `C51_affected`). -/
def levelBound (b : Store) : Nat := b.length + 2

/-- The loop of `_get_schema_node_name_for_data_slice_path` (lines 557-566). -/
def followPath (b : Store) : Option Item → Option Action → Item → List Action →
    Except Err (Option Item × Option Action × Item)
  | parent, action, child, [] => .ok (parent, action, child)
  | _, _, child, a :: path =>
    match subschema (kindOf b) child a with
    | .none => .error .valueError
    | some c => followPath b (some child) (some a) c path

/-- `_get_schema_node_name_for_data_slice_path` (lines 508-571). -/
def nodeNameForPath (t : Text) (b : Store) (schema : Item) (path : List Action) :
    Except Err Name :=
  match followPath b .none .none schema path with
  | .error e => .error e
  | .ok (parent, action, child) => getSchemaNodeName t parent action child

/-- A relation: a dict or a `defaultdict(set)`. -/
structure Relation where
  entries : List (Name × List Name)
  isDefault : Bool
  deriving Repr

/-- `relation[x]`. Simplification: the entry that a `defaultdict` adds is left out. -/
def Relation.get (r : Relation) (x : Name) : Except Err (List Name) :=
  match r.entries.lookup x with
  | some ys => .ok ys
  | .none => if r.isDefault then .ok [] else .error .keyError

/-- `result[y].add(x)` of a `defaultdict(set)` (line 581). -/
def defaultAdd (d : List (Name × List Name)) (y x : Name) : List (Name × List Name) :=
  dictSet d y (setAdd ((d.lookup y).getD []) x)

/-- `_get_converse_relation` (lines 574-582). -/
def converse (relation : List (Name × List Name)) : Relation :=
  { entries := relation.foldl (fun acc e => e.2.foldl (fun acc y => defaultAdd acc y e.1) acc) []
    isDefault := true }

/-- `s.update(ys)`. -/
def setUpdate (s ys : List Name) : List Name := ys.foldl setAdd s

/-- Lines 603-605. -/
def initialUnvisited (r : Relation) : List Name → List Name → Except Err (List Name)
  | [], acc => .ok acc
  | x :: xs, acc =>
    match r.get x with
    | .error e => .error e
    | .ok ys => initialUnvisited r xs (setUpdate acc ys)

/-- The `while` loop (lines 606-612), at most `n` iterations; `pick` says which element
`set.pop` takes. `none` if the loop has not ended. -/
def closureLoop (r : Relation) (pick : List Name → Nat) :
    Nat → List Name → List Name → Except Err (Option (List Name))
  | _, [], result => .ok (some result)
  | 0, _ :: _, _ => .ok .none
  | n + 1, u :: us, result =>
    let i := pick (u :: us) % (us.length + 1)
    let current := (u :: us).getD i u
    let unvisited := (u :: us).eraseIdx i
    if result.contains current then closureLoop r pick n unvisited result
    else
      match r.get current with
      | .error e => .error e
      | .ok ys => closureLoop r pick n (setUpdate unvisited ys) (setAdd result current)

/-- A number of iterations that is always enough (`C17_ancestors`, `C17_descendants`). -/
def closureBound (r : Relation) : Nat :=
  let m := (r.entries.map fun e => e.2.length).foldl (· + ·) 0
  (m + 1) * (m + 1)

/-- `_get_transitive_closure_image` (lines 585-613). -/
def closureImage (r : Relation) (pick : List Name → Nat) (ofSet : List Name) :
    Except Err (Option (List Name)) :=
  match initialUnvisited r ofSet [] with
  | .error e => .error e
  | .ok unvisited => closureLoop r pick (closureBound r) unvisited []

/-- `SchemaHelper` (lines 616-623). -/
structure Helper where
  text : Text
  store : Store
  schema : Item
  graph : List (Name × List Name)
  schemas : List (Name × Item)
  bags : List ((Name × Name) × Bag)
  parents : Relation

/-- `SchemaHelper.__init__` (lines 625-634); the check that the schema is a schema item is
left out. `none` if it has not ended. -/
def Helper.make (t : Text) (b : Store) (schema : Item) : Except Err (Option Helper) :=
  match analyzeSchema t b (levelBound b) ⟨.none, .none, schema⟩ false with
  | .error e => .error e
  | .ok .none => .ok .none
  | .ok (some a) => .ok (some
    { text := t
      store := b
      schema := schema
      graph := a.graph
      schemas := a.schemas
      bags := a.bags
      parents := converse a.graph })

/-- `get_all_schema_node_names` (lines 639-640). -/
def Helper.allNames (h : Helper) : List Name := h.graph.map (·.1)

/-- `get_leaf_schema_node_names` (lines 642-643). -/
def Helper.leafNames (h : Helper) : List Name :=
  (h.graph.filter fun e => e.2.isEmpty).map (·.1)

/-- `get_non_leaf_schema_node_names` (lines 645-646). -/
def Helper.nonLeafNames (h : Helper) : List Name :=
  (h.graph.filter fun e => !e.2.isEmpty).map (·.1)

/-- `is_valid_schema_node_name` (lines 678-679). -/
def Helper.isValid (h : Helper) (n : Name) : Bool := (h.graph.lookup n).isSome

/-- `_check_is_valid_schema_node_name` (lines 868-873). -/
def Helper.check (h : Helper) (n : Name) : Except Err Unit :=
  if h.isValid n then .ok () else .error .valueError

/-- The checks of all names of a set (lines 663-664, 672-673, 835-836). -/
def Helper.checkAll (h : Helper) : List Name → Except Err Unit
  | [] => .ok ()
  | n :: ns => do
    h.check n
    h.checkAll ns

/-- `get_parent_schema_node_names` (lines 648-652). -/
def Helper.parentNames (h : Helper) (n : Name) : Except Err (List Name) := do
  h.check n
  h.parents.get n

/-- `get_child_schema_node_names` (lines 654-658). -/
def Helper.childNames (h : Helper) (n : Name) : Except Err (List Name) := do
  h.check n
  (Relation.mk h.graph false).get n

/-- `get_ancestor_schema_node_names` (lines 660-667). -/
def Helper.ancestors (h : Helper) (pick : List Name → Nat) (ns : List Name) :
    Except Err (Option (List Name)) := do
  h.checkAll ns
  closureImage h.parents pick ns

/-- `get_descendant_schema_node_names` (lines 669-676). -/
def Helper.descendants (h : Helper) (pick : List Name → Nat) (ns : List Name) :
    Except Err (Option (List Name)) := do
  h.checkAll ns
  closureImage ⟨h.graph, false⟩ pick ns

/-- `is_leaf_schema_node_name` (lines 681-685). -/
def Helper.isLeaf (h : Helper) (n : Name) : Except Err Bool := do
  h.check n
  let children ← (Relation.mk h.graph false).get n
  return children.length == 0

/-- `is_non_leaf_schema_node_name` (lines 687-689). -/
def Helper.isNonLeaf (h : Helper) (n : Name) : Except Err Bool := do
  let leaf ← h.isLeaf n
  return !leaf

/-- `get_subschema_at` (lines 754-757). -/
def Helper.subschemaAt (h : Helper) (n : Name) : Except Err Item := do
  h.check n
  match h.schemas.lookup n with
  | .none => .error .keyError
  | some i => .ok i

/-- `is_entity_schema` (koladata/data_slice.cc:1267-1279). -/
def isEntitySchema (b : Store) (i : Item) : Bool :=
  match kindOf b i with
  | .entity _ => true
  | _ => false

/-- `get_affected_schema_node_names` (lines 691-752); `vb` is the bag of the value's schema. -/
def Helper.affected (h : Helper) (at_ : Name) (attr : Name) (vb : Store) (value : Item) :
    Except Err (Option (List Name)) := do
  let sub ← h.subschemaAt at_
  if isEntitySchema h.store sub then
    match analyzeSchema h.text vb (levelBound vb) ⟨some sub, some (.getAttr attr), value⟩ true with
    | .error e => .error e
    | .ok .none => .ok .none
    | .ok (some a) => .ok (some (a.graph.map (·.1)))
  else .error .valueError

/-- `get_schema_node_name_for_data_slice_path` (lines 785-790). -/
def Helper.nameForPath (h : Helper) (path : List Action) : Except Err Name :=
  nodeNameForPath h.text h.store h.schema path

/-- `exists` (lines 778-783). -/
def Helper.exists_ (h : Helper) (path : List Action) : Except Err Bool :=
  match h.nameForPath path with
  | .ok _ => .ok true
  | .error .valueError => .ok false
  | .error e => .error e

/-- The checks of the paths of a request (lines 803-813). -/
def Helper.checkPaths (h : Helper) : List (List Action) → Except Err Unit
  | [] => .ok ()
  | p :: ps => do
    let e ← h.exists_ p
    if e then h.checkPaths ps else .error .valueError

/-- The names of the paths of a request (lines 815-818, 822-824). -/
def Helper.namesForPaths (h : Helper) : List (List Action) → List Name → Except Err (List Name)
  | [], acc => .ok acc
  | p :: ps, acc => do
    let n ← h.nameForPath p
    h.namesForPaths ps (setAdd acc n)

/-- `get_schema_node_names_needed_to` (lines 792-829). -/
def Helper.neededTo (h : Helper) (pick : List Name → Nat)
    (populate populateIncludingDescendants : List (List Action)) :
    Except Err (Option (List Name)) := do
  h.checkPaths populate
  h.checkPaths populateIncludingDescendants
  let needed ← h.namesForPaths populateIncludingDescendants []
  match ← h.descendants pick needed with
  | .none => return .none
  | some below =>
    let needed := setUpdate needed below
    let named ← h.namesForPaths populate []
    let needed := setUpdate needed named
    match ← h.ancestors pick needed with
    | .none => return .none
    | some above => return some (setUpdate needed above)

/-- The stub bags of `get_schema_bag` (lines 839-844). -/
def Helper.stubBags (h : Helper) : List Name → Except Err (List Bag)
  | [] => .ok []
  | n :: ns =>
    match h.schemas.lookup n with
    | .none => .error .keyError
    | some i => do
      let s ← schemaStubBag h.store i
      let rest ← h.stubBags ns
      return s :: rest

/-- `get_schema_bag` (lines 831-857). -/
def Helper.schemaBag (h : Helper) (names : List Name) : Except Err Bag := do
  h.checkAll names
  let stubs ← h.stubBags names
  let relationships := (h.bags.filter fun e =>
    names.contains e.1.2 && (e.1.1 == noParentMarker || names.contains e.1.1)).map (·.2)
  return bagsUpdated (stubs ++ relationships)

/-- `get_minimal_schema_bag_for_parent_child_relationship` (lines 859-866). -/
def Helper.relationshipBag (h : Helper) (parent child : Name) : Except Err Bag := do
  h.check parent
  h.check child
  match h.bags.lookup (parent, child) with
  | .none => .error .keyError
  | some bag => .ok bag

/-- `SchemaHelperMixin.get_schema_at` (schema_helper_mixin.py:49-56). -/
def Helper.schemaAtPath (h : Helper) (path : List Action) : Except Err Item := do
  let n ← h.nameForPath path
  h.subschemaAt n

end Verif.SchemaHelper
