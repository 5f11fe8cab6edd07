import Verif.Traverse.Model

/-!
Model of the comparison of two slices with all that can be reached from them,
`koladata/internal/op_utils/deep_comparator.h`, and of its two uses: `DeepEquivalentOp`
(`deep_equivalent.cc`, used by `kd.testing.assert_equivalent`) and
`DeepSchemaCompatibleOp` (`deep_schema_compatible.cc`, used when casting to an entity schema,
`koladata/casting.cc`).

The bags are given by what their read functions return, see `Verif.Traverse.Model`. Instead of
the bag with the result (`DeepDiff`, deep_diff.cc) the model has the list of the differences that
were recorded, and the list of the transitions that were saved; a token is the pair of items
that it was created for. How paths to the differences are found in the result is not modelled.
-/

namespace Verif.Compare

open Verif.ObjectId
open Verif.Uuid
open Verif.Traverse (Bag Name Pair Transitions getTransitions getObjectSchema holdsId holdsDType
  kObject kSchema kItemId)

/-- `TransitionType` (traverse_helper.h:53-65), without the types that are not made by
`GetTransitionKeys`. -/
inductive KeyType where
  | listItem | listNoItems | dictKey | dictNoKeys | dictValue | dictNoValues | attr | schemaAttr
deriving DecidableEq, Repr

/-- The numbers of the types (traverse_helper.h:53-65). -/
def KeyType.rank : KeyType → Nat
  | .listItem => 0
  | .listNoItems => 1
  | .dictKey => 2
  | .dictNoKeys => 3
  | .dictValue => 4
  | .dictNoValues => 5
  | .attr => 6
  | .schemaAttr => 7

/-- `TransitionKey` (traverse_helper.h:112-121). The index is -1 there when there is none, here
it is 0. -/
structure TKey where
  type : KeyType
  index : Nat := 0
  value : Item := .missing
deriving DecidableEq, Repr

/-- The keys of the items of a list from position `i` on (traverse_helper.h:356-359). -/
def listKeys : Nat → List Item → List TKey
  | _, [] => []
  | i, _ :: rest => { type := .listItem, index := i } :: listKeys (i + 1) rest

/-- The keys of the items of a dict from position `i` on (traverse_helper.h:364-371). -/
def dictKeys : Nat → List (Item × Item) → List TKey
  | _, [] => []
  | i, x :: rest =>
    { type := .dictKey, index := i, value := x.1 } ::
      { type := .dictValue, index := i, value := x.1 } :: dictKeys (i + 1) rest

/-- `GetTransitionKeys` (traverse_helper.h:353-389). -/
def transitionKeys : Transitions → List TKey
  | .none => []
  | .list _ l => if l = [] then [{ type := .listNoItems }] else listKeys 0 l
  | .dict _ _ l =>
    if l = [] then [{ type := .dictNoKeys }, { type := .dictNoValues }] else dictKeys 0 l
  | .entity names => names.map (fun n => { type := .attr, value := .text n })
  | .schema names => names.map (fun n => { type := .schemaAttr, value := .text n })

/-- The name in a key. -/
def TKey.name (k : TKey) : Name :=
  match k.value with
  | .text n => n
  | _ => []

/-- `TransitionByKey` (traverse_helper.h:463-500). -/
def transitionByKey (b : Bag) (x s : Item) (t : Transitions) (k : TKey) : Except Traverse.Err Pair :=
  match k.type, t with
  | .listItem, .list it l => .ok (l.getD k.index .missing, it)
  | .dictKey, .dict kt _ _ => .ok (k.value, kt)
  | .dictValue, .dict _ vt l => .ok ((l.getD k.index (.missing, .missing)).2, vt)
  | .attr, _ => Traverse.attributeTransition b x s k.name
  | .schemaAttr, _ => Traverse.schemaAttributeTransition b x k.name
  | .listNoItems, .list it _ => .ok (.missing, it)
  | .dictNoKeys, .dict kt _ _ => .ok (.missing, kt)
  | .dictNoValues, .dict _ vt _ => .ok (.missing, vt)
  | _, _ => .error .unsupported

/-- `AbstractComparator` (deep_comparator.h:43-92): the order of the keys, whether two
transitions are equal, whether equal ones are compared further, and which differences are
recorded. -/
structure Comparator where
  order : TKey → TKey → Ordering
  equal : Pair → Pair → Bool
  deep : Pair → Pair → Bool
  lhsOnly : TKey → Pair → Bool
  rhsOnly : TKey → Pair → Bool
  mismatch : TKey → Pair → Pair → Bool

/-- A recorded difference. The first argument is the token of the place. -/
inductive Diff where
  | lhsOnly (place : Pair × Pair) (key : TKey) (l : Pair)
  | rhsOnly (place : Pair × Pair) (key : TKey) (r : Pair)
  | mismatch (place : Pair × Pair) (key : TKey) (l r : Pair)
  | slice (i : Nat) (l r : Pair)
deriving DecidableEq, Repr

/-- What can go wrong. -/
inductive Err where
  | sizes
  | token
  | traverse (e : Traverse.Err)
deriving DecidableEq, Repr

/-- `token_map_`, `to_compare_` (deep_comparator.h:306-309) and what was recorded. The top of
the stack is the head of the list. The map is a list of its keys; it does not tell numbers
of the same value apart, which is not modelled: nothing can be reached from them. -/
structure State where
  tokens : List (Pair × Pair)
  stack : List (Pair × Pair)
  diffs : List Diff
  edges : List ((Pair × Pair) × TKey × (Pair × Pair))

/-- `AddToCompare` (deep_comparator.h:188-201), with `CreateToken` (deep_equivalent.cc:46-60,
deep_schema_compatible.cc:56-70). -/
def addToCompare (c : Comparator) (st : State) (l r : Pair) : Except Err State :=
  if (l, r) ∈ st.tokens then .ok st
  else if l.1 = .missing ∧ r.1 ≠ .missing then .error .token
  else .ok { st with
    tokens := (l, r) :: st.tokens
    stack := if c.deep l r then (l, r) :: st.stack else st.stack }

/-- What the merge of the two sorted lists of keys does next. -/
inductive Step where
  | left (k : TKey)
  | right (k : TKey)
  | both (k k' : TKey)
deriving DecidableEq, Repr

/-- The merge (deep_comparator.h:252-300) as long as `l` is the first key on the left; `rest`
continues without it. -/
def stepsWith (cmp : TKey → TKey → Ordering) (l : TKey) (rest : List TKey → List Step) :
    List TKey → List Step
  | [] => .left l :: rest []
  | r :: rs => match cmp l r with
    | .lt => .left l :: rest (r :: rs)
    | .gt => .right r :: stepsWith cmp l rest rs
    | .eq => .both l r :: rest rs

/-- The merge of two sorted lists of keys (deep_comparator.h:252-300). -/
def steps (cmp : TKey → TKey → Ordering) : List TKey → List TKey → List Step
  | [], rs => rs.map .right
  | l :: ls, rs => stepsWith cmp l (steps cmp ls) rs

/-- `SortTransitions` (deep_comparator.h:203-210). -/
def sortKeys (cmp : TKey → TKey → Ordering) (l : List TKey) : List TKey :=
  sortBy (fun a b => cmp a b == .lt) l

section
variable (c : Comparator) (bl br : Bag)

/-- One step of the merge (deep_comparator.h:230-245, 255-283). -/
def doStep (place : Pair × Pair) (l r : Pair) (tl tr : Transitions) (st : State) :
    Step → Except Err State
  | .left k => match transitionByKey bl l.1 l.2 tl k with
    | .error e => .error (.traverse e)
    | .ok p => .ok (if c.lhsOnly k p then { st with diffs := .lhsOnly place k p :: st.diffs } else st)
  | .right k => match transitionByKey br r.1 r.2 tr k with
    | .error e => .error (.traverse e)
    | .ok p => .ok (if c.rhsOnly k p then { st with diffs := .rhsOnly place k p :: st.diffs } else st)
  | .both k k' => match transitionByKey bl l.1 l.2 tl k with
    | .error e => .error (.traverse e)
    | .ok p => match transitionByKey br r.1 r.2 tr k' with
      | .error e => .error (.traverse e)
      | .ok q =>
        if c.equal p q then
          match addToCompare c st p q with
          | .error e => .error e
          | .ok st => .ok { st with edges := (place, k, (p, q)) :: st.edges }
        else .ok (if c.mismatch k p q then { st with diffs := .mismatch place k p q :: st.diffs }
          else st)

/-- All steps. -/
def doSteps (place : Pair × Pair) (l r : Pair) (tl tr : Transitions) : State → List Step →
    Except Err State
  | st, [] => .ok st
  | st, s :: rest => match doStep c bl br place l r tl tr st s with
    | .error e => .error e
    | .ok st => doSteps place l r tl tr st rest

/-- The schema of an object is its own (deep_comparator.h:216-223). -/
def ownSchema (b : Bag) (p : Pair) : Except Err Pair :=
  if p.2 = kObject ∧ holdsId p.1 = true then
    match getObjectSchema b p.1 with
    | .error e => .error (.traverse e)
    | .ok s => .ok (p.1, s)
  else .ok p

/-- One iteration of `DeepCompare` (deep_comparator.h:213-301) for a place that was taken from
the stack. -/
def compareAt (place : Pair × Pair) (st : State) : Except Err State :=
  match ownSchema bl place.1 with
  | .error e => .error e
  | .ok l => match ownSchema br place.2 with
    | .error e => .error e
    | .ok r => match getTransitions bl l.1 l.2 true with
      | .error e => .error (.traverse e)
      | .ok tl => match getTransitions br r.1 r.2 true with
        | .error e => .error (.traverse e)
        | .ok tr =>
          doSteps c bl br place l r tl tr st
            (steps c.order (sortKeys c.order (transitionKeys tl))
              (sortKeys c.order (transitionKeys tr)))

/-- `DeepCompare` (deep_comparator.h:212-303). The number bounds the iterations: `none` means
that the loop is not over yet. -/
def deepCompare : Nat → State → Option (Except Err State)
  | 0, st => if st.stack = [] then some (.ok st) else none
  | n + 1, st => match st.stack with
    | [] => some (.ok st)
    | place :: rest => match compareAt c bl br place { st with stack := rest } with
      | .error e => some (.error e)
      | .ok st => deepCompare n st

/-- The loop over the slices from position `i` on (deep_comparator.h:128-149). -/
def startSlices (ls rs : Item) : Nat → List (Item × Item) → State → Except Err State
  | _, [], st => .ok st
  | i, (x, y) :: rest, st =>
    if !c.equal (x, ls) (y, rs) then
      startSlices ls rs (i + 1) rest { st with diffs := .slice i (x, ls) (y, rs) :: st.diffs }
    else match addToCompare c st (x, ls) (y, rs) with
      | .error e => .error e
      | .ok st => startSlices ls rs (i + 1) rest st

/-- `CompareSlices` (deep_comparator.h:111-152). -/
def compareSlices (fuel : Nat) (xs : List Item) (ls : Item) (ys : List Item) (rs : Item) :
    Option (Except Err State) :=
  if xs.length ≠ ys.length then some (.error .sizes)
  else
    let xs' := if xs = [] then [Item.missing] else xs
    let ys' := if ys = [] then [Item.missing] else ys
    match startSlices c ls rs 0 (xs'.zip ys') ⟨[], [], [], []⟩ with
    | .error e => some (.error e)
    | .ok st => deepCompare c bl br fuel st

end

/-! ### deep_equivalent -/

/-- The number of the type of an item in `ScalarVariant` (types.h:42-59). -/
def typeId : Item → Nat
  | .missing => 0
  | .object _ => 1
  | .int32 _ => 2
  | .int64 _ => 3
  | .float32 _ => 4
  | .float64 _ => 5
  | .bool _ => 6
  | .unit => 7
  | .text _ => 8
  | .bytes _ => 9
  | .dtype _ => 10
  | .expr _ => 11

/-- The value of a floating point number: not a number, infinite, or `± n · 2^-1074`. -/
inductive Real where
  | nan
  | inf (neg : Bool)
  | num (neg : Bool) (n : Nat)
deriving DecidableEq, Repr

/-- The value of a FLOAT32 (IEEE 754). -/
def real32 (b : BitVec 32) : Real :=
  let e := b.toNat / 2 ^ 23 % 2 ^ 8
  let m := b.toNat % 2 ^ 23
  let neg := decide (b.toNat ≥ 2 ^ 31)
  if e = 255 then (if m = 0 then .inf neg else .nan)
  else if e = 0 then .num neg (m * 2 ^ 925)
  else .num neg ((m + 2 ^ 23) * 2 ^ (e - 1 + 925))

/-- The value of a FLOAT64 (IEEE 754). -/
def real64 (b : BitVec 64) : Real :=
  let e := b.toNat / 2 ^ 52 % 2 ^ 11
  let m := b.toNat % 2 ^ 52
  let neg := decide (b.toNat ≥ 2 ^ 63)
  if e = 2047 then (if m = 0 then .inf neg else .nan)
  else if e = 0 then .num neg m
  else .num neg ((m + 2 ^ 52) * 2 ^ (e - 1))

/-- `is_nan` (data_item.h:161-171). -/
def isNan : Item → Bool
  | .float32 b => decide (real32 b = .nan)
  | .float64 b => decide (real64 b = .nan)
  | _ => false

/-- `==` of floating point numbers: zeros are equal. -/
def realEq : Real → Real → Bool
  | .inf s, .inf t => s == t
  | .num s m, .num t n => m == n && (s == t || m == 0)
  | _, _ => false

/-- `==` of items (data_item.h:245-269, 369-403): INT32 and INT64 are compared by value, and
so are FLOAT32 and FLOAT64, since the conversion to the larger type is exact. -/
def itemEq : Item → Item → Bool
  | .int32 a, .int32 b => decide (a = b)
  | .int32 a, .int64 b => decide (a.toInt = b.toInt)
  | .int64 a, .int32 b => decide (a.toInt = b.toInt)
  | .int64 a, .int64 b => decide (a = b)
  | .float32 a, .float32 b => realEq (real32 a) (real32 b)
  | .float32 a, .float64 b => realEq (real32 a) (real64 b)
  | .float64 a, .float32 b => realEq (real64 a) (real32 b)
  | .float64 a, .float64 b => realEq (real64 a) (real64 b)
  | a, b => decide (a = b)

/-- `is_list` (data_item.h). -/
def itemIsList : Item → Bool
  | .object o => o.isList
  | _ => false

/-- `is_dict` (data_item.h). -/
def itemIsDict : Item → Bool
  | .object o => o.isDict
  | _ => false

/-- `is_schema` (data_item.h). -/
def itemIsSchema : Item → Bool
  | .object o => o.isSchema
  | .dtype _ => true
  | _ => false

/-- `DeepEquivalentParams` (deep_equivalent.h:41-48). -/
structure Params where
  partly : Bool
  schemas : Bool
  ids : Bool

/-- `CompareOrder` (deep_equivalent.cc:114-134). `lt` compares two values of the same type. The
keys of dicts and names are never floating point numbers (dict.h:54-62). -/
def compareOrder (lt : Item → Item → Bool) (l r : TKey) : Ordering :=
  if l.type ≠ r.type then (if l.type.rank < r.type.rank then .lt else .gt)
  else if l.type = .listItem then
    (if l.index = r.index then .eq else if l.index < r.index then .lt else .gt)
  else if typeId l.value ≠ typeId r.value then
    (if typeId l.value < typeId r.value then .lt else .gt)
  else if l.value = r.value then .eq
  else if lt l.value r.value then .lt else .gt

/-- `IsSchemaMismatch` (deep_equivalent.cc:167-170). -/
def schemaMismatch (P : Params) (l r : Pair) : Bool := P.schemas && decide (l.2 ≠ r.2)

/-- `Equal` (deep_equivalent.cc:135-159). -/
def equalItems (P : Params) (l r : Pair) : Bool :=
  if schemaMismatch P l r then false
  else if !holdsId l.1 || !holdsId r.1 || P.ids then
    (if isNan l.1 && isNan r.1 then true else itemEq l.1 r.1)
  else if itemIsList l.1 ≠ itemIsList r.1 then false
  else if itemIsDict l.1 ≠ itemIsDict r.1 then false
  else if itemIsSchema l.1 ≠ itemIsSchema r.1 then false
  else if l.2 = kItemId then decide (r.2 = l.2) && itemEq l.1 r.1
  else true

/-- The keys of items of lists and values of dicts. -/
def isElement (k : TKey) : Bool := k.type == .listItem || k.type == .dictValue

/-- `EquivalentComparator` (deep_equivalent.cc:41-174). -/
def equivalent (lt : Item → Item → Bool) (P : Params) : Comparator where
  order := compareOrder lt
  equal := equalItems P
  deep := fun _ _ => true
  lhsOnly := fun k l =>
    if P.partly && !isElement k then false
    else if decide (l.1 = .missing) && !P.schemas then false
    else true
  rhsOnly := fun _ r => if decide (r.1 = .missing) && !P.schemas then false else true
  mismatch := fun k _ r => if P.partly && !isElement k && decide (r.1 = .missing) then false else true

/-- `DeepEquivalentOp` (deep_equivalent.cc:178-194): the recorded differences. -/
def deepEquivalent (lt : Item → Item → Bool) (P : Params) (bl br : Bag) (fuel : Nat)
    (xs : List Item) (ls : Item) (ys : List Item) (rs : Item) : Option (Except Err (List Diff)) :=
  match compareSlices (equivalent lt P) bl br fuel xs ls ys rs with
  | none => none
  | some (.error e) => some (.error e)
  | some (.ok st) => some (.ok st.diffs)

/-! ### compatible schemas -/

/-- `SchemaCompatibleParams` (deep_schema_compatible.h:41-48). -/
structure SchemaParams where
  allowRemoving : Bool
  allowNew : Bool

/-- `CompareOrder` (deep_schema_compatible.cc:131-137): `DataItem::Less` (data_item.h:271-304) of
the values. -/
def compareNames (lt : Item → Item → Bool) (l r : TKey) : Ordering :=
  if l.value = r.value then .eq
  else if typeId l.value ≠ typeId r.value then
    (if typeId l.value < typeId r.value then .lt else .gt)
  else if lt l.value r.value then .lt else .gt

/-- `SchemaCompatibleComparator` (deep_schema_compatible.cc:44-162). -/
def schemaCompatible (lt : Item → Item → Bool) (P : SchemaParams) (callback : Item → Item → Bool) :
    Comparator where
  order := compareNames lt
  equal := fun l r => if !itemIsSchema l.1 || !itemIsSchema r.1 then false else callback l.1 r.1
  deep := fun l r => decide (l.1 ≠ kObject) && decide (r.1 ≠ kObject)
  lhsOnly := fun _ l => if P.allowRemoving then false else if !itemIsSchema l.1 then false else true
  rhsOnly := fun _ r => if P.allowNew then false else if !itemIsSchema r.1 then false else true
  mismatch := fun _ l r =>
    if P.allowRemoving && decide (r.1 = .missing) then false
    else if P.allowNew && decide (l.1 = .missing) then false
    else if !itemIsSchema l.1 && !itemIsSchema r.1 then false
    else true

/-- `DeepSchemaCompatibleOp` (deep_schema_compatible.cc:167-184): whether no difference was
recorded. `diff_found_` is set when one is recorded. -/
def deepSchemaCompatible (lt : Item → Item → Bool) (P : SchemaParams)
    (callback : Item → Item → Bool) (bl br : Bag) (fuel : Nat) (x y : Item) :
    Option (Except Err Bool) :=
  match compareSlices (schemaCompatible lt P callback) bl br fuel [x] kSchema [y] kSchema with
  | none => none
  | some (.error e) => some (.error e)
  | some (.ok st) => some (.ok (decide (st.diffs = [])))

/-- The dtypes from which one can cast to a dtype (casting.cc:92-113, 195-222): the `switch` of
`IsProbablyCastableTo` with its masks. -/
def allowedFrom (to : Fin 14) : List (Fin 14) :=
  match to with
  | 13 => [0, 1, 2, 3, 4, 5, 6, 7, 8, 9, 10, 11, 12, 13]
  | 1 | 0 | 2 | 3 => [13, 1, 0, 2, 3, 4, 7, 6, 11]
  | 4 => [13, 1, 0, 2, 3, 4, 11]
  | 5 => [13, 5, 4, 11]
  | 7 => [13, 7, 6, 5, 4, 1, 0, 2, 3, 11]
  | 6 => [13, 6, 11]
  | 8 => [13, 8, 11]
  | 10 => [13, 10, 11, 12]
  | 12 => [13, 12, 11]
  | _ => []

/-- `IsProbablyCastableTo` (casting.cc:171-224), for schemas. -/
def isProbablyCastable (x y : Item) : Bool :=
  match y with
  | .object _ => holdsId x || decide (x = kObject) || decide (x = .dtype 13)
  | .dtype m => match x with
    | .object _ => decide (m = 10) || decide (m = 13)
    | .dtype n => decide (n ∈ allowedFrom m)
    | _ => false
  | _ => false

/-- `AssertSchemasCompatible` (casting.cc:226-300) for schemas in a bag: whether it succeeds. -/
def assertCompatible (lt : Item → Item → Bool) (P : SchemaParams) (callback : Item → Item → Bool)
    (b : Bag) (fuel : Nat) (x y : Item) : Option (Except Err Bool) :=
  if x = y then some (.ok true)
  else if !holdsId x || !holdsId y then some (.ok (callback x y))
  else deepSchemaCompatible lt P callback b b fuel x y

end Verif.Compare
