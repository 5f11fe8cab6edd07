/-!
Model of `koladata/internal/dict.h` and `koladata/internal/dict.cc`: `Dict`, the mutable
dictionary behind a Koda dict or schema, with links to parent dicts, and `DictVector`.

Dicts are numbered in the order of their creation, pointers are these numbers. A hash map is the
list of its entries in the order of iteration; the theorems hold for every order.
-/

namespace Verif.Dict

/-- What the model leaves open: the missing item, which types of keys are supported
(`IsUnsupportedDataItemKeyType`, dict.h:59-63) and `DataItem::Less` (data_item.h:262-301). -/
structure Cfg (K V : Type) where
  missing : V
  supported : K → Bool
  less : K → K → Bool

/-- `Dict` (dict.h:39, 178-183). -/
structure Dict (K V : Type) where
  data : List (K × V)
  parent : Option Nat

variable {K V : Type} [DecidableEq K]

/-- The map of a dict; a dict that does not exist is `GetEmptyDict()` (data_bag.cc:2166-2184). -/
def dataOf (heap : List (Dict K V)) (d : Nat) : List (K × V) :=
  match heap[d]? with
  | none => []
  | some dict => dict.data

/-- `parent_` (dict.h:183). Parents are older than their children. -/
def parentOf (heap : List (Dict K V)) (d : Nat) : Option Nat :=
  match heap[d]? with
  | none => none
  | some dict =>
    match dict.parent with
    | none => none
    | some p => if p < d then some p else none

omit [DecidableEq K] in
theorem parentOf_lt {heap : List (Dict K V)} {d p : Nat} (h : parentOf heap d = some p) : p < d := by
  unfold parentOf at h
  split at h
  · cases h
  · split at h
    · cases h
    · split at h
      · injection h with h
        omega
      · cases h

/-- `Dict::Get` (dict.h:83-92). -/
def get (heap : List (Dict K V)) (d : Nat) (key : K) : Option V :=
  match (dataOf heap d).lookup key with
  | some v => some v
  | none =>
    match _h : parentOf heap d with
    | none => none
    | some p => get heap p key
termination_by d
decreasing_by exact parentOf_lt _h

/-- `data_[key] = value` of a hash map. -/
def assign (data : List (K × V)) (key : K) (value : V) : List (K × V) :=
  match data with
  | [] => [(key, value)]
  | (k, v) :: rest => if k = key then (k, value) :: rest else (k, v) :: assign rest key value

/-- `Dict::Set` (dict.h:69-80). -/
def set (c : Cfg K V) (heap : List (Dict K V)) (d : Nat) (key : K) (value : V) : List (Dict K V) :=
  if !c.supported key then heap
  else heap.modify d fun dict => { dict with data := assign dict.data key value }

/-- `Dict::GetOrAssign` (dict.h:98-124). -/
def getOrAssign (c : Cfg K V) (heap : List (Dict K V)) (d : Nat) (key : K) (value : V) :
    List (Dict K V) × V :=
  if !c.supported key then (heap, c.missing)
  else
    match parentOf heap d with
    | none =>
      match (dataOf heap d).lookup key with
      | some v => (heap, v)
      | none => (heap.modify d fun dict => { dict with data := assign dict.data key value }, value)
    | some p =>
      match (dataOf heap d).lookup key with
      | some v => (heap, v)
      | none =>
        match get heap p key with
        | some v => (heap, v)
        | none =>
          (heap.modify d fun dict => { dict with data := assign dict.data key value }, value)

/-- `FindFirstNonEmpty` (dict.h:170-176). -/
def findFirstNonEmpty (heap : List (Dict K V)) (d : Nat) : Option Nat :=
  if (dataOf heap d).isEmpty then
    match _h : parentOf heap d with
    | none => none
    | some p => findFirstNonEmpty heap p
  else some d
termination_by d
decreasing_by exact parentOf_lt _h

/-- The variables of the loop of the collector (dict.cc:51-53). -/
structure Collector (K : Type) (α : Type) where
  origKeys : List K
  usedKeys : List K
  out : List α

/-- The loop over the entries of one dict (dict.cc:69-77); `more` is the condition of
dict.cc:73. -/
def collectEntries {α : Type} (item : K × V → α) (more : Bool) (st : Collector K α) :
    List (K × V) → Collector K α
  | [] => st
  | e :: es =>
    if e.1 ∉ st.origKeys ∧ e.1 ∉ st.usedKeys then
      collectEntries item more
        { st with
          out := st.out ++ [item e]
          usedKeys := if more then e.1 :: st.usedKeys else st.usedKeys } es
    else collectEntries item more st es

/-- The iterations of the loop over a dict and its parents (dict.cc:54-79), which end when there is
no parent; `getParent` is the handle of the same name, `item` selects keys or values,
`hasFallbacks` tells that there are fallbacks left. Simplification: a handle that does not go to
an older dict stops. -/
def collectChain {α : Type} (heap : List (Dict K V)) (getParent : Nat → Option Nat)
    (item : K × V → α) (hasFallbacks : Bool) (d : Nat) (st : Collector K α) : Collector K α :=
  let st := collectEntries item ((getParent d).isSome || hasFallbacks) st (dataOf heap d)
  match getParent d with
  | none => st
  | some p => if p < d then collectChain heap getParent item hasFallbacks p st else st
termination_by d

/-- The iterations of the loop that start at a fallback (dict.cc:55-68). -/
def collectFallbacks {α : Type} (heap : List (Dict K V)) (getParent : Nat → Option Nat)
    (item : K × V → α) : List Nat → Collector K α → Collector K α
  | [], st => st
  | fb :: rest, st =>
    collectFallbacks heap getParent item rest
      (collectChain heap getParent item (!rest.isEmpty) fb
        { st with usedKeys := st.origKeys ++ st.usedKeys, origKeys := [] })

/-- `CollectKeysOrValuesFromParentAndFallbacks` (dict.cc:54-79). -/
def collectLoop {α : Type} (heap : List (Dict K V)) (getParent : Nat → Option Nat)
    (item : K × V → α) (dict : Option Nat) (fallbacks : List Nat) (st : Collector K α) : List α :=
  match dict with
  | none => (collectFallbacks heap getParent item fallbacks st).out
  | some d =>
    (collectFallbacks heap getParent item fallbacks
      (collectChain heap getParent item (!fallbacks.isEmpty) d st)).out

/-- `Dict::GetKeys` (dict.cc:83-102) and `Dict::GetValues` (dict.cc:137-156), which differ only
in what they collect. -/
def getItems {α : Type} (heap : List (Dict K V)) (item : K × V → α) (d : Nat)
    (fallbacks : List Nat) : List α :=
  match findFirstNonEmpty heap d with
  | none =>
    match fallbacks with
    | [] => []
    | fb :: rest => getItems heap item fb rest
  | some dict =>
    let items := (dataOf heap dict).map item
    if (parentOf heap dict).isSome || !fallbacks.isEmpty then
      collectLoop heap (parentOf heap) item (parentOf heap dict) fallbacks
        ⟨(dataOf heap dict).map Prod.fst, [], items⟩
    else items
termination_by structural fallbacks

/-- `Dict::GetKeys` (dict.cc:83-102). -/
def getKeys (heap : List (Dict K V)) (d : Nat) (fallbacks : List Nat) : List K :=
  getItems heap Prod.fst d fallbacks

/-- `Dict::GetValues` (dict.cc:137-156). -/
def getValues (heap : List (Dict K V)) (d : Nat) (fallbacks : List Nat) : List V :=
  getItems heap Prod.snd d fallbacks

/-- `std::sort` as an insertion sort. -/
def insertSorted {α : Type} (less : α → α → Bool) (x : α) : List α → List α
  | [] => [x]
  | y :: ys => if less y x then y :: insertSorted less x ys else x :: y :: ys

/-- `std::sort` as an insertion sort. -/
def sort {α : Type} (less : α → α → Bool) (xs : List α) : List α :=
  xs.foldr (insertSorted less) []

/-- `Dict::GetSortedKeys` (dict.cc:104-109). -/
def getSortedKeys (c : Cfg K V) (heap : List (Dict K V)) (d : Nat) (fallbacks : List Nat) : List K :=
  sort c.less (getKeys heap d fallbacks)

/-- `keys[a] < keys[b]` (dict.cc:163-165). -/
def lessAt (c : Cfg K V) (keys : List K) (a b : Nat) : Bool :=
  match keys[a]?, keys[b]? with
  | some x, some y => c.less x y
  | _, _ => false

/-- `Dict::GetSortedByKeyValues` (dict.cc:158-173). -/
def getSortedByKeyValues (c : Cfg K V) (heap : List (Dict K V)) (d : Nat) (fallbacks : List Nat) :
    List V :=
  let keys := getKeys heap d fallbacks
  let indices := sort (lessAt c keys) (List.range keys.length)
  let values := getValues heap d fallbacks
  indices.map fun i => values.getD i c.missing

/-- The handle of `GetModifiedKeys` (dict.cc:129-132). -/
def parentUntil (heap : List (Dict K V)) (stop : Option Nat) (d : Nat) : Option Nat :=
  if parentOf heap d = stop then none else parentOf heap d

/-- `Dict::GetModifiedKeys` (dict.cc:111-135). -/
def getModifiedKeys (heap : List (Dict K V)) (d : Nat) (parent : Option Nat) : List K :=
  match findFirstNonEmpty heap d with
  | none => []
  | some this =>
    let parent := parent.bind (findFirstNonEmpty heap)
    if some this = parent then []
    else
      let keys := (dataOf heap this).map Prod.fst
      if parentOf heap this ≠ parent then
        collectLoop heap (parentUntil heap parent) Prod.fst (parentUntil heap parent this) []
          ⟨(dataOf heap this).map Prod.fst, [], keys⟩
      else keys

/-- `GetSizeNoFallbacks` (dict.h:151-160). -/
def getSizeNoFallbacks (heap : List (Dict K V)) (d : Nat) : Nat :=
  match findFirstNonEmpty heap d with
  | none => 0
  | some dict =>
    match parentOf heap dict with
    | none => (dataOf heap dict).length
    | some _ => (getKeys heap dict []).length

/-- `data_.emplace(key, value)` of a hash map, which keeps the value of a key that exists. -/
def emplace (data : List (K × V)) (key : K) (value : V) : List (K × V) :=
  match data.lookup key with
  | some _ => data
  | none => data ++ [(key, value)]

/-- `Dict::Clear` (dict.h:41-50). -/
def clear (c : Cfg K V) (heap : List (Dict K V)) (d : Nat) : List (Dict K V) :=
  let keys := getKeys heap d []
  heap.modify d fun _ =>
    { data := keys.foldl (fun data key => emplace data key c.missing) [], parent := none }

/-- `DictVector(size)` (dict.h:190). The new dicts are the last ones. -/
def newDicts (heap : List (Dict K V)) (size : Nat) : List (Dict K V) :=
  heap ++ List.replicate size ⟨[], none⟩

/-- The parent of a child: parents that are empty are skipped (dict.h:200-203, 210-211). -/
def childParent (heap : List (Dict K V)) (p : Nat) : Option Nat :=
  if (dataOf heap p).isEmpty then parentOf heap p else some p

/-- `DictVector(parent)` (dict.h:196-205): the dicts of the parent vector have the numbers
`first`, ..., `first + size - 1`. -/
def forkDicts (heap : List (Dict K V)) (first size : Nat) : List (Dict K V) :=
  heap ++ (List.range' first size).map fun p => ⟨[], childParent heap p⟩

/-- `DictVector(size, parent_dict)` (dict.h:207-215). -/
def forkDict (heap : List (Dict K V)) (p size : Nat) : List (Dict K V) :=
  heap ++ List.replicate size ⟨[], childParent heap p⟩

/-- `GetFromDictObjectWithFallbacks` (data_bag.cc:2685-2712). Simplification: the dicts of the
bags are given; a bag without the dict is an empty dict. -/
def getWithFallbacks (heap : List (Dict K V)) (d : Nat) (fallbacks : List Nat) (key : K) :
    Option V :=
  match get heap d key with
  | some v => some v
  | none =>
    match fallbacks with
    | [] => none
    | fb :: rest => getWithFallbacks heap fb rest key
termination_by structural fallbacks

/-- `GetDictSize` of one dict of a slice (data_bag.cc:2331-2349). -/
def getDictSize (heap : List (Dict K V)) (d : Nat) (fallbacks : List Nat) : Nat :=
  match fallbacks with
  | [] => getSizeNoFallbacks heap d
  | [fb] =>
    if getSizeNoFallbacks heap d = 0 then getSizeNoFallbacks heap fb
    else (getKeys heap d [fb]).length
  | _ => (getKeys heap d fallbacks).length

/-- `UpdateFilterKeysWithPresentValues` (data_bag.cc:2553-2567) on the keys and values of a
dict: the attribute names of a small schema (data_bag.cc:2803-2808). -/
def keysWithPresentValues (isMissing : V → Bool) (heap : List (Dict K V)) (d : Nat)
    (fallbacks : List Nat) : List K :=
  (((getKeys heap d fallbacks).zip (getValues heap d fallbacks)).filter fun e =>
    !isMissing e.2).map Prod.fst

end Verif.Dict
