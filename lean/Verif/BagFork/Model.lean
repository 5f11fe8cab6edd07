/-!
Model of the copy on write storage of Koda lists and of forking bags:
`DataListVector` (`koladata/internal/data_list.h`, `data_list.cc`), the list part of
`DataBagImpl` (`koladata/internal/data_bag.cc`) and forking of `DataBag`
(`koladata/data_bag.h`, `data_bag.cc`).

Pointers are addresses: lists live in a heap, vectors, bag implementations and bags are
numbered in the order of their creation. A heap cell is `none` after its list was moved away.
-/

namespace Verif.BagFork

/-- What the model leaves open: `A` are the allocation ids with their capacity
(object_id.h:293), `L` the lists with the empty list `DataList()` (data_list.h:53), and
`useArray size updateSize` is `ShouldUseArray` (data_list.h:289-291), see `shouldUseArray`. -/
structure Cfg (A L : Type) where
  capacity : A → Nat
  emptyList : L
  useArray : Nat → Nat → Bool

/-- `ShouldUseArray` (data_list.h:276, 289-291). -/
def shouldUseArray (size updateSize : Nat) : Bool :=
  decide (size ≤ 4) || decide (updateSize * 10 > size * 3)

/-- The variant `data_` (data_list.h:266-283, 356): the map from positions to lists, or the
array of `ListAndPtr`, the address of the own list and the pointer. -/
inductive VecData where
  | map (m : List (Nat × Nat))
  | array (a : List (Nat × Option Nat))

/-- `DataListVector` (data_list.h:355-357). -/
structure Vec where
  size : Nat
  data : VecData
  parent : Option Nat

/-- The heap and the vectors. -/
structure Store (L : Type) where
  heap : List (Option L)
  vecs : List Vec

/-- `DataListVector::Get` and `GetFromMap` (data_list.h:329-335, data_list.cc:207-218). Parents
are older than their children. -/
def vecGet (vecs : List Vec) (v i : Nat) : Option Nat :=
  match vecs[v]? with
  | none => none
  | some vec =>
    match vec.data with
    | .array a =>
      match a[i]? with
      | some slot => slot.2
      | none => none
    | .map m =>
      match m.lookup i with
      | some a => some a
      | none =>
        match vec.parent with
        | none => none
        | some p => if _h : p < v then vecGet vecs p i else none
termination_by v

/-- `parent->Get(i)`, or `nullptr` without a parent (data_list.h:313-316, data_list.cc:196-200). -/
def parentGet (vecs : List Vec) (parent : Option Nat) (i : Nat) : Option Nat :=
  match parent with
  | none => none
  | some p => vecGet vecs p i

variable {A L : Type} [DecidableEq A]

/-- The constructors of `DataListVector` (data_list.h:296-325). -/
def newVec (c : Cfg A L) (s : Store L) (size updateSize : Nat) (parent : Option Nat) : Store L :=
  if c.useArray size updateSize then
    { heap := s.heap ++ List.replicate size (some c.emptyList)
      vecs := s.vecs ++ [⟨size, .array ((List.range size).map fun i =>
        (s.heap.length + i, parentGet s.vecs parent i)), parent⟩] }
  else { s with vecs := s.vecs ++ [⟨size, .map [], parent⟩] }

/-- The list at an address. -/
def deref (heap : List (Option L)) (a : Nat) : Option L := (heap[a]?).join

/-- `DataListVector::GetMutableFromArray` (data_list.cc:220-230). -/
def getMutableFromArray (s : Store L) (v : Nat) (vec : Vec) (arr : List (Nat × Option Nat))
    (i : Nat) : Store L × Nat :=
  match arr[i]? with
  | none => (s, 0)
  | some (own, ptr) =>
    let vecs := s.vecs.set v { vec with data := .array (arr.set i (own, some own)) }
    match ptr with
    | none => ({ s with vecs := vecs }, own)
    | some p =>
      if p = own then (s, own)
      else ({ heap := s.heap.set own (deref s.heap p), vecs := vecs }, own)

/-- `Map::ConvertToArray` (data_list.cc:194-205) with the creation of the array
(data_list.cc:239-241): the lists of the map are moved to the array. Simplification: the loop
over the map is written position by position; the keys of the map are distinct. -/
def convertToArray (c : Cfg A L) (s : Store L) (vec : Vec) (m : List (Nat × Nat)) :
    List (Option L) × List (Nat × Option Nat) :=
  let base := s.heap.length
  let moved := s.heap.mapIdx fun a cell => if m.any (fun e => e.2 == a) then none else cell
  let own := (List.range vec.size).map fun i =>
    match m.lookup i with
    | some a => deref s.heap a
    | none => some c.emptyList
  let slots := (List.range vec.size).map fun i =>
    (base + i, match m.lookup i with
      | some _ => some (base + i)
      | none => parentGet s.vecs vec.parent i)
  (moved ++ own, slots)

/-- The list that `GetMutableFromMap` starts from (data_list.cc:244-250). -/
def initialList (c : Cfg A L) (s : Store L) (vec : Vec) (i : Nat) : Option L :=
  match parentGet s.vecs vec.parent i with
  | some p => deref s.heap p
  | none => some c.emptyList

/-- `DataListVector::GetMutableFromMap` (data_list.cc:232-251). Simplification: the lists of
the map do not change their addresses when the map grows. -/
def getMutableFromMap (c : Cfg A L) (s : Store L) (v : Nat) (vec : Vec) (m : List (Nat × Nat))
    (i : Nat) : Store L × Nat :=
  match m.lookup i with
  | some a => (s, a)
  | none =>
    if c.useArray vec.size (m.length + 1) then
      let (heap, arr) := convertToArray c s vec m
      let vec' := { vec with data := .array arr }
      getMutableFromArray { heap := heap, vecs := s.vecs.set v vec' } v vec' arr i
    else
      ({ heap := s.heap ++ [initialList c s vec i]
         vecs := s.vecs.set v { vec with data := .map ((i, s.heap.length) :: m) } }, s.heap.length)

/-- `DataListVector::GetMutable` (data_list.h:337-343). -/
def getMutable (c : Cfg A L) (s : Store L) (v i : Nat) : Store L × Nat :=
  match s.vecs[v]? with
  | none => (s, 0)
  | some vec =>
    match vec.data with
    | .array arr => getMutableFromArray s v vec arr i
    | .map m => getMutableFromMap c s v vec m i

/-- A change of the list that `GetMutable` returned. -/
def modifyVec (c : Cfg A L) (s : Store L) (v i : Nat) (f : L → L) : Store L :=
  let (s, a) := getMutable c s v i
  { s with heap := s.heap.set a ((deref s.heap a).map f) }

/-- The lists of a `DataBagImpl` (data_bag.h:1045-1069). Simplification: the attributes and
dicts are not modelled, so `IsPristine` (data_bag.cc:494-497) is about lists only. -/
structure Impl (A : Type) where
  parent : Option Nat
  lists : List (A × Nat)
  frozen : Bool

/-- `DataBag` (data_bag.h:65-245). -/
structure Bag where
  impl : Nat
  isMutable : Bool
  forked : Bool

/-- All bags of the process. -/
structure World (A L : Type) where
  store : Store L
  impls : List (Impl A)
  bags : List Bag

/-- `GetConstListsOrNull` (data_bag.cc:1349-1367). -/
def getConstLists (impls : List (Impl A)) (b : Nat) (alloc : A) : Option Nat :=
  match impls[b]? with
  | none => none
  | some impl =>
    match impl.lists.lookup alloc with
    | some v => some v
    | none =>
      match impl.parent with
      | none => none
      | some p => if _h : p < b then getConstLists impls p alloc else none
termination_by b

/-- `GetConstListsOrNull` of the parent, or `nullptr` (data_bag.cc:1434-1440). -/
def parentLists (impls : List (Impl A)) (parent : Option Nat) (alloc : A) : Option Nat :=
  match parent with
  | none => none
  | some p => getConstLists impls p alloc

/-- The size of a new vector: that of the parent (data_list.h:308), or the capacity
(data_bag.cc:1441-1443). -/
def newSize (c : Cfg A L) (s : Store L) (parent : Option Nat) (alloc : A) : Nat :=
  match parent with
  | some p => (s.vecs[p]?.map Vec.size).getD 0
  | none => c.capacity alloc

/-- `GetOrCreateMutableLists` (data_bag.cc:1427-1446). -/
def getOrCreateMutableLists (c : Cfg A L) (w : World A L) (b : Nat) (alloc : A)
    (updateSize : Nat) : World A L × Nat :=
  match w.impls[b]? with
  | none => (w, 0)
  | some impl =>
    match impl.lists.lookup alloc with
    | some v => (w, v)
    | none =>
      let parent := parentLists w.impls impl.parent alloc
      let size := newSize c w.store parent alloc
      let v := w.store.vecs.length
      ({ w with
          store := newVec c w.store size updateSize parent
          impls := w.impls.set b { impl with lists := (alloc, v) :: impl.lists } }, v)

/-- `DataBagImpl::IsPristine` (data_bag.cc:494-497). -/
def Impl.isPristine (impl : Impl A) : Bool := impl.lists.isEmpty

/-- `DataBagImpl::PartiallyPersistentFork` (data_bag.cc:485-490), the new implementation. -/
def partiallyPersistentFork (impls : List (Impl A)) (b : Nat) : Impl A :=
  match impls[b]? with
  | none => ⟨none, [], false⟩
  | some impl => ⟨if impl.isPristine then impl.parent else some b, [], false⟩

/-- `DataBagImpl::Freeze` (data_bag.h:180). -/
def freezeImpl (impls : List (Impl A)) (b : Nat) : List (Impl A) :=
  impls.modify b fun impl => { impl with frozen := true }

/-- `DataBag::EmptyMutable` and `DataBag::Empty` (data_bag.h:72-75, 211-219). -/
def newBag (w : World A L) (isMutable : Bool) : World A L :=
  { w with
    impls := w.impls ++ [⟨none, [], !isMutable⟩]
    bags := w.bags ++ [⟨w.impls.length, isMutable, false⟩] }

/-- `DataBag::FallbackFreeFork` (data_bag.cc:68-93); `Fork` (data_bag.cc:95-102) for bags
without fallbacks. -/
def fork (w : World A L) (b : Nat) (immutable : Bool) : World A L :=
  match w.bags[b]? with
  | none => w
  | some bag =>
    let new := partiallyPersistentFork w.impls bag.impl
    let impls := freezeImpl w.impls bag.impl
    let impls := impls ++ [{ new with frozen := immutable }]
    let bags := w.bags.set b { bag with forked := bag.forked || bag.isMutable }
    { w with impls := impls, bags := bags ++ [⟨w.impls.length, !immutable, false⟩] }

/-- `DataBag::Freeze` (data_bag.cc:104-111): the bag that is returned is the last one, or `b`. -/
def freeze (w : World A L) (b : Nat) : World A L × Nat :=
  match w.bags[b]? with
  | none => (w, b)
  | some bag => if bag.isMutable then (fork w b true, w.bags.length) else (w, b)

/-- `DataBag::UnsafeMakeImmutable` (data_bag.h:121-124). -/
def makeImmutable (w : World A L) (b : Nat) : World A L :=
  match w.bags[b]? with
  | none => w
  | some bag =>
    { w with
      bags := w.bags.set b { bag with isMutable := false }
      impls := freezeImpl w.impls bag.impl }

/-- `DataBag::GetMutableImpl` (data_bag.h:89-105). -/
def getMutableImpl (w : World A L) (b : Nat) : Except Unit (World A L × Nat) :=
  match w.bags[b]? with
  | none => .error ()
  | some bag =>
    if !bag.isMutable then .error ()
    else if bag.forked then
      let impls := freezeImpl w.impls bag.impl
      let new := partiallyPersistentFork impls bag.impl
      let n := w.impls.length
      .ok ({ w with
        impls := impls ++ [new]
        bags := w.bags.set b { bag with impl := n, forked := false } }, n)
    else .ok (w, bag.impl)

/-- A change of one list through a bag: `GetMutableImpl`, then `MutableListGetter`
(data_bag.cc:1316-1339) and a change of the list that it returns. -/
def modify (c : Cfg A L) (w : World A L) (b : Nat) (alloc : A) (offset updateSize : Nat)
    (f : L → L) : Except Unit (World A L) :=
  match getMutableImpl w b with
  | .error e => .error e
  | .ok (w, impl) =>
    let (w, v) := getOrCreateMutableLists c w impl alloc updateSize
    .ok { w with store := modifyVec c w.store v offset f }

/-- Reading a list: `ReadOnlyListGetter` (data_bag.cc:1289-1306); `none` is `nullptr`. -/
def read (w : World A L) (b : Nat) (alloc : A) (offset : Nat) : Option L :=
  match w.bags[b]? with
  | none => none
  | some bag =>
    match getConstLists w.impls bag.impl alloc with
    | none => none
    | some v =>
      match vecGet w.store.vecs v offset with
      | none => none
      | some a => deref w.store.heap a

/-- `GetFirstPresentList` (data_bag.cc:1369-1399) with fallbacks. -/
def getFirstPresentList (c : Cfg A L) (w : World A L) (b : Nat) (fallbacks : List Nat) (alloc : A)
    (offset : Nat) : L :=
  match read w b alloc offset with
  | some l => l
  | none =>
    match fallbacks with
    | [] => c.emptyList
    | fb :: rest => getFirstPresentList c w fb rest alloc offset

/-- The calls that change the bags. -/
inductive Call (A L : Type) where
  | newBag (isMutable : Bool)
  | fork (b : Nat) (immutable : Bool)
  | freeze (b : Nat)
  | makeImmutable (b : Nat)
  | modify (b : Nat) (alloc : A) (offset updateSize : Nat) (f : L → L)

/-- One call; a call that fails changes nothing. -/
def step (c : Cfg A L) (w : World A L) : Call A L → World A L
  | .newBag m => newBag w m
  | .fork b im => fork w b im
  | .freeze b => (freeze w b).1
  | .makeImmutable b => makeImmutable w b
  | .modify b alloc offset updateSize f =>
    match modify c w b alloc offset updateSize f with
    | .ok w => w
    | .error _ => w

/-- No bags. -/
def World.init : World A L := ⟨⟨[], []⟩, [], []⟩

end Verif.BagFork
