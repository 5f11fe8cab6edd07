import Verif.BagAttr.Spec
/-
Model of saving and loading the attributes of a bag:
`DataBagImpl::CreateIndex` and `ExtractAttrContent`
(/repo/koladata/internal/data_bag.cc 3919-4058), `EncodeAttribute` and
`EncodeDataBag` (/repo/koladata/s11n/encoder.cc 283-306, 355-414),
`DecodeAttrProto` and `DecodeDataBagValue` (/repo/koladata/s11n/decoder.cc
567-632, 675-727).  The bags are those of `Verif.BagAttr`.

Simplified throughout:
* Lists, dicts and the attributes of schemas are left out, and so is the identity
  of an immutable bag.
* A bag with fallbacks is saved as a list of bags without them, and has no data of
  its own: only bags without fallbacks are modelled.
* The values a bag refers to (`input_value_indices`) are kept as they are: that a
  slice is read as it was written is the subject of `Verif.S11n`.  The slices that
  are written come from a `SliceBuilder`, as do those that are read.
* Sets and maps are lists.  The orders in which they are enumerated and sorted are
  given by an `Order`.
-/

namespace Verif.BagSave

open Verif.BagAttr

/-- The orders in which attributes, allocations and items are written: the order
of a hash map (data_bag.cc 3943), and two calls of `std::sort` (3946, 4051). -/
structure Order where
  attrs : List Attr → List Attr
  allocs : List Alloc → List Alloc
  items : List (Obj × Item) → List (Obj × Item)

/-- The elements of a list without repetitions: a hash set. -/
def dedup {α : Type} [DecidableEq α] : List α → List α
  | [] => []
  | x :: xs => x :: (dedup xs).filter (· ≠ x)

/-- `DataBagIndex::AttrIndex` (data_bag.h). -/
structure AttrIndex where
  small : Bool
  allocs : List Alloc
deriving DecidableEq, Repr

/-- The attributes in the index: the loops over `sources_` and
`small_alloc_sources_` of the bag and its parents (data_bag.cc 3924-3941). -/
def indexAttrs (layers : List Layer) : List Attr :=
  dedup (layers.flatMap fun l => l.big.keys.map (·.2) ++ l.small.keys)

/-- The index of one attribute (data_bag.cc 3935-3947). -/
def attrIndex (K : Order) (layers : List Layer) (attr : Attr) : AttrIndex :=
  { small := layers.any fun l => (l.small.get? attr).isSome
    allocs := K.allocs (dedup (layers.flatMap fun l =>
      l.big.keys.filterMap fun k => if k.2 = attr then some k.1 else none)) }

/-- `DataBagImpl::CreateIndex` (data_bag.cc 3919-3953), attributes only. -/
def createIndex (K : Order) (layers : List Layer) : List (Attr × AttrIndex) :=
  (K.attrs (indexAttrs layers)).map fun attr => (attr, attrIndex K layers attr)

/-- `DataBagContent::AttrContent` (data_bag.h). -/
structure Content where
  items : List (Obj × Item)
  allocs : List (Alloc × Slice)
deriving DecidableEq, Repr

/-- `GetAttributeFromSources` for the first `size` objects of an allocation
(data_bag.cc 96-124, 4045-4048). -/
def fromSources (a : Alloc) (size : Nat) (dense : List Dense) (sparse : List Sparse) : Slice :=
  let ids : List (Option Obj) := (List.range size).map fun i => some ⟨a, i⟩
  build (fillAll (sparse.map (·.get) ++ dense.map (·.inserts)) ids (mask ids))

/-- The items of sparse sources (data_bag.cc 4030-4043).  `mergedEntries` is the
loop with `visited_ids`. -/
def sparseItems (ss : List Sparse) : List (Obj × Item) :=
  match ss with
  | [s] => s.map
  | ss => mergedEntries ss

/-- What one allocation adds to the content (data_bag.cc 4023-4050). -/
def allocContent (layers : List Layer) (attr : Attr) (a : Alloc) : Content :=
  let r := dataSources a attr layers
  if r.1 = 0 then { items := [], allocs := [] }
  else if r.2.1.isEmpty then
    { items := sparseItems r.2.2, allocs := [] }
  else { items := [], allocs := [(a, fromSources a r.1 r.2.1 r.2.2)] }

/-- `DataBagImpl::ExtractAttrContent` (data_bag.cc 4017-4058) with
`ExtractSmallAllocAttrContent` (4001-4015). -/
def extractAttr (K : Order) (layers : List Layer) (attr : Attr) (index : AttrIndex) : Content :=
  let small := if index.small then mergedEntries (smallSources attr layers) else []
  { items := K.items
      (small ++ index.allocs.flatMap fun a => (allocContent layers attr a).items)
    allocs := index.allocs.flatMap fun a => (allocContent layers attr a).allocs }

/-- A value that a saved bag refers to. -/
inductive Input where
  | item (v : Item)
  | slice (s : Slice)
deriving DecidableEq, Repr

/-- `AttrChunkProto` (codec.proto 119-126). -/
structure Chunk where
  first : Obj
  sub : Nat
deriving DecidableEq, Repr

/-- A saved bag: the `attrs` of `DataBagProto` (codec.proto 153-164), and its
input values. -/
structure Saved where
  attrs : List (Attr × List Chunk)
  inputs : List Input
deriving DecidableEq, Repr

/-- The first loop of `EncodeAttribute` (encoder.cc 288-296). -/
def encodeItems : List (Obj × Item) → List Input → List Chunk × List Input
  | [], ins => ([], ins)
  | e :: es, ins =>
    let r := encodeItems es (ins ++ [.item e.2])
    (⟨e.1, ins.length⟩ :: r.1, r.2)

/-- The second loop of `EncodeAttribute` (encoder.cc 297-306). -/
def encodeSlices : List (Alloc × Slice) → List Input → List Chunk × List Input
  | [], ins => ([], ins)
  | e :: es, ins =>
    let r := encodeSlices es (ins ++ [.slice e.2])
    (⟨⟨e.1, 0⟩, ins.length⟩ :: r.1, r.2)

/-- `EncodeAttribute` (encoder.cc 283-308). -/
def encodeAttr (c : Content) (ins : List Input) : List Chunk × List Input :=
  let r := encodeItems c.items ins
  let s := encodeSlices c.allocs r.2
  (r.1 ++ s.1, s.2)

/-- The loop over attributes of `EncodeDataBag` (encoder.cc 385-394). -/
def encodeAttrs (K : Order) (layers : List Layer) :
    List (Attr × AttrIndex) → List Input → Saved
  | [], ins => { attrs := [], inputs := ins }
  | e :: es, ins =>
    let r := encodeAttr (extractAttr K layers e.1 e.2) ins
    let s := encodeAttrs K layers es r.2
    { attrs := (e.1, r.1) :: s.attrs, inputs := s.inputs }

/-- `EncodeDataBag` (encoder.cc 355-414). -/
def saveBag (K : Order) (b : Bag) : Saved :=
  encodeAttrs K b.layers (createIndex K b.layers) []

inductive LoadErr where
  | badIndex          -- "invalid input value index"
  | badOffset         -- "first_object_id must have offset==0 ..."
  | tooManyValues     -- "values don't fit into AllocationId ..."
  | bag (e : Err)     -- an error of the bag
deriving DecidableEq, Repr

def liftErr (r : Except Err Bag) : Except LoadErr Bag :=
  match r with
  | .error e => .error (.bag e)
  | .ok b => .ok b

/-- One chunk in `DecodeAttrProto` (decoder.cc 571-607). -/
def decodeChunk (attr : Attr) (ins : List Input) (b : Bag) (c : Chunk) : Except LoadErr Bag :=
  match ins[c.sub]? with
  | none => .error .badIndex
  | some (.item v) => liftErr (setAttr b (.object c.first) attr v)
  | some (.slice s) =>
    if c.first.off ≠ 0 then .error .badOffset
    else if c.first.alloc.capacity < s.cells.length then .error .tooManyValues
    else liftErr (setAttrFullAlloc b c.first.alloc attr s)

/-- `DecodeAttrProto` (decoder.cc 567-632). -/
def decodeChunks (attr : Attr) (ins : List Input) (b : Bag) : List Chunk → Except LoadErr Bag
  | [] => .ok b
  | c :: cs =>
    match decodeChunk attr ins b c with
    | .error e => .error e
    | .ok b' => decodeChunks attr ins b' cs

/-- The loop over attributes of `DecodeDataBagValue` (decoder.cc 699-701). -/
def decodeAttrs (ins : List Input) (b : Bag) : List (Attr × List Chunk) → Except LoadErr Bag
  | [] => .ok b
  | e :: es =>
    match decodeChunks e.1 ins b e.2 with
    | .error err => .error err
    | .ok b' => decodeAttrs ins b' es

/-- `DecodeDataBagValue` (decoder.cc 675-727) for a bag without fallbacks. -/
def loadBag (id : Nat) (s : Saved) : Except LoadErr Bag :=
  decodeAttrs s.inputs (emptyBag id) s.attrs

end Verif.BagSave
