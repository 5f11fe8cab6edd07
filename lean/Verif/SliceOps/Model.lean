import Verif.Compare.Model

/-!
Model of the operators on slices in `koladata/operators/slices.cc`: `select`, `inverse_select`,
`reverse`, `unique`, `group_by_indices`, `align`, `subslice` and `take`, with
`koladata/internal/op_utils/{select.cc, inverse_select.h, reverse.cc, at.cc, expand.h}`,
`koladata/subslice_utils.cc` and `koladata/shape_utils.cc`.

A slice has a jagged shape and a flat array of items. The shape is given by the sizes of the groups
in each dimension; split points are the sums of the sizes (arolla's `DenseArrayEdge`). Of
arolla the model has the operators on edges and arrays that the code calls, by what they
return. The types of the items, the bag and the schema of the data are not modelled, except where
they are checked.
-/

namespace Verif.SliceOps

open Verif.Uuid (Item)

/-- The sizes of the groups of a dimension (`DenseArrayEdge`). -/
abbrev Edge := List Nat

/-- `DataSlice`: the shape and the items; `none` is a missing item (data_slice.h). -/
structure Slice (α : Type) where
  edges : List Edge
  items : List (Option α)
deriving DecidableEq, Repr

/-- What can go wrong. -/
inductive Err where
  | rankZero
  | higherRank
  | broadcast
  | notMask
  | filterSchema
  | shape
  | rank
  | item
  | sort
  | indices
deriving DecidableEq, Repr

/-- `rank` (arolla's `JaggedShape`). -/
def Slice.rank {α : Type} (s : Slice α) : Nat := s.edges.length

/-- The checks of `JaggedShape::FromEdges`: each dimension has as many groups as there are items in
the one before. -/
def shapeOk : Nat → List Edge → Bool
  | _, [] => true
  | n, e :: es => decide (e.length = n) && shapeOk e.sum es

/-- The groups of an array. -/
def chop {α : Type} : Edge → List α → List (List α)
  | [], _ => []
  | n :: ns, l => l.take n :: chop ns (l.drop n)

/-- `edge_values` of an edge: its split points, from `k` on. -/
def splitPoints : Nat → Edge → List Nat
  | k, [] => [k]
  | k, n :: ns => k :: splitPoints (k + n) ns

/-- `IsBroadcastableTo` (arolla's `JaggedShape`). -/
def isBroadcastable (es fs : List Edge) : Bool := es.isPrefixOf fs

/-- `DenseArrayExpandOp`: each item as often as its group has items. -/
def expand {α : Type} : Edge → List α → List α
  | n :: ns, x :: xs => List.replicate n x ++ expand ns xs
  | _, _ => []

/-- Expanding over several dimensions (`GetBroadcastEdge` and `ExpandOp`, expand.h:41-80). -/
def expandAll {α : Type} : List Edge → List α → List α
  | [], l => l
  | e :: es, l => expandAll es (expand e l)

/-- `BroadcastToShape` (data_slice.h:700-715, data_slice.cc:2660-2665). -/
def broadcastTo {α : Type} (s : Slice α) (edges : List Edge) : Except Err (Slice α) :=
  if !isBroadcastable s.edges edges then .error .broadcast
  else if s.rank = edges.length then .ok s
  else .ok ⟨edges, expandAll (edges.drop s.rank) s.items⟩

/-! ### select -/

/-- `DenseArrayAtOp` with `DenseArrayPresentIndicesOp`: the items at the positions of the mask. -/
def keep {α : Type} : List Bool → List α → List α
  | true :: m, x :: xs => x :: keep m xs
  | false :: m, _ :: xs => keep m xs
  | _, _ => []

/-- `CountPresenceInGroup` (select.cc:77-87). -/
def countPresent (e : Edge) (mask : List Bool) : Edge := (chop e mask).map (·.count true)

/-- The loop over the dimensions below the filter (select.cc:137-150): the new edges and the mask of the
items. `SelectPresentEdge` (select.cc:61-75) keeps the sizes of the groups that are present. -/
def selectEdges : List Edge → List Bool → List Edge × List Bool
  | [], mask => ([], mask)
  | e :: es, mask =>
    let r := selectEdges es (expand e mask)
    (keep mask e :: r.1, r.2)

/-- The mask of a filter (select.cc:117-126): all items are missing, or all present items are of
type MASK. -/
def maskOf (items : List (Option Item)) : Except Err (List Bool) :=
  if items.all (·.isNone) then .ok (items.map fun _ => false)
  else if items.all (fun x => x.isNone || x == some .unit) then .ok (items.map (·.isSome))
  else .error .notMask

/-- `SelectOp` (select.cc:91-168). -/
def selectOp {α : Type} (ds : Slice α) (fltr : Slice Item) : Except Err (Slice α) :=
  if fltr.rank < 1 then .error .rankZero
  else if fltr.rank > ds.rank then .error .higherRank
  else if !isBroadcastable fltr.edges ds.edges then .error .broadcast
  else match maskOf fltr.items with
    | .error e => .error e
    | .ok mask => match ds.edges.drop (fltr.rank - 1) with
      | [] => .error .rank
      | e :: rest =>
        let r := selectEdges rest mask
        let edges := ds.edges.take (fltr.rank - 1) ++ countPresent e mask :: r.1
        if !shapeOk 1 edges then .error .shape else .ok ⟨edges, keep r.2 ds.items⟩

/-- `Select` (slices.cc:908-950). `schema` is the schema of the filter. -/
def select {α : Type} (ds : Slice α) (fltr : Slice Item) (schema : Item) (expandFilter : Bool) :
    Except Err (Slice α) :=
  if schema ≠ .dtype 11 ∧ schema ≠ .dtype 5 then .error .filterSchema
  else
    let edges := if expandFilter then ds.edges else fltr.edges
    if edges.length > ds.rank then .error .higherRank
    else if edges.length = 0 then .error .rankZero
    else match broadcastTo fltr edges with
      | .error e => .error e
      | .ok fltr => selectOp ds fltr

/-- `DenseArrayFromIndicesAndValues`: the items at the positions of the mask, in their order. -/
def fill {α : Type} : List Bool → List (Option α) → List (Option α)
  | [], _ => []
  | true :: m, x :: xs => x :: fill m xs
  | true :: m, [] => none :: fill m []
  | false :: m, xs => none :: fill m xs

/-- The last dimension replaced. -/
def replaceLast (es : List Edge) (e : Edge) : List Edge := es.dropLast ++ [e]

/-- `InverseSelect` (slices.cc:952-980) with `InverseSelectOp` (inverse_select.h:47-101). -/
def inverseSelect {α : Type} (ds : Slice α) (fltr : Slice Item) (schema : Item) :
    Except Err (Slice α) :=
  if ds.rank = 0 then .error .item
  else if schema ≠ .dtype 11 ∧ schema ≠ .dtype 5 then .error .filterSchema
  else if ds.rank ≠ fltr.rank then .error .rank
  else match maskOf fltr.items with
    | .error e => .error e
    | .ok mask =>
      let edges := replaceLast fltr.edges (countPresent (fltr.edges.getLast?.getD []) mask)
      if !shapeOk 1 edges then .error .shape
      else if edges ≠ ds.edges then .error .shape
      else .ok ⟨fltr.edges, fill mask ds.items⟩

/-! ### reverse -/

/-- The loop that finds the group of a position (reverse.cc:42-44). -/
def advance (splits : List Nat) (offset : Nat) : Nat → Nat → Nat
  | 0, id => id
  | fuel + 1, id => if splits.getD (id + 1) 0 ≤ offset then advance splits offset fuel (id + 1) else id

/-- The loop over the items from position `offset` on (reverse.cc:41-47). -/
def reverseLoop {α : Type} (splits : List Nat) : Nat → Nat → List (Option α) → List (Option α) →
    List (Option α)
  | _, _, [], out => out
  | offset, id, none :: rest, out => reverseLoop splits (offset + 1) id rest out
  | offset, id, some v :: rest, out =>
    let id := advance splits offset splits.length id
    let newOffset := splits.getD (id + 1) 0 - offset - 1
    reverseLoop splits (offset + 1) id rest (out.set (splits.getD id 0 + newOffset) (some v))

/-- `Reverse` (slices.cc:899-906) with `ReverseOp` (reverse.cc:28-53). Items of each type are
handled one after the other, which makes no difference. -/
def reverse {α : Type} (s : Slice α) : Slice α :=
  match s.edges.getLast? with
  | none => s
  | some e => ⟨s.edges, reverseLoop (splitPoints 0 e) 0 0 s.items (s.items.map fun _ => none)⟩

/-! ### unique -/

section
variable {α : Type} (eq : α → α → Bool) (isNan : α → Bool)

/-- The map of `Unique`: for each value the group it was last seen in. -/
abbrev Seen (α : Type) := List (α × Nat)

/-- `map.emplace` with the assignment that follows (slices.cc:826-831): `none` if the value was seen
in this group. -/
def seenBefore (x : α) (id : Nat) : Seen α → Option (Seen α)
  | [] => some [(x, id)]
  | (y, i) :: rest =>
    if eq y x then (if i ≠ id then some ((y, id) :: rest) else none)
    else match seenBefore x id rest with
      | none => none
      | some r => some ((y, i) :: r)

/-- The loop over the items of a group (slices.cc:811-833): the map, the values of the group in
reverse order, and the first value that is not a number. -/
def uniqueLoop (sort : Bool) (id : Nat) : List (Option α) → Seen α × List α × Option α →
    Seen α × List α × Option α
  | [], st => st
  | none :: rest, st => uniqueLoop sort id rest st
  | some x :: rest, (map, vals, nan) =>
    if isNan x then
      (match nan with
      | none => uniqueLoop sort id rest (map, if sort then vals else x :: vals, some x)
      | some n => uniqueLoop sort id rest (map, vals, some n))
    else match seenBefore eq x id map with
      | none => uniqueLoop sort id rest (map, vals, nan)
      | some map => uniqueLoop sort id rest (map, x :: vals, nan)

/-- `std::sort`, as insertion sort. -/
def insertSorted (lt : α → α → Bool) (x : α) : List α → List α
  | [] => [x]
  | y :: ys => if lt x y then x :: y :: ys else y :: insertSorted lt x ys

/-- `std::sort` of values, by `<`. -/
def sortValues (lt : α → α → Bool) : List α → List α
  | [] => []
  | x :: xs => insertSorted lt x (sortValues lt xs)

/-- The loop over the groups (slices.cc:805-847). -/
def uniqueGroups (lt : α → α → Bool) (sort : Bool) : Nat → Seen α → List (List (Option α)) →
    List (List α)
  | _, _, [] => []
  | id, map, g :: gs =>
    let st := uniqueLoop eq isNan sort id g (map, [], none)
    let vals := if sort then sortValues lt st.2.1.reverse ++ st.2.2.toList else st.2.1.reverse
    vals :: uniqueGroups lt sort (id + 1) st.1 gs

/-- `Unique` (slices.cc:780-897). `eq`, `lt` and `isNan` are those of the type of the items. For items of
different types `isNan` is false for all of them (slices.cc:94-107: `std::numeric_limits` is
not specialized for `DataItem`). `sortable`: the items are of one type, with an order. -/
def unique (lt : α → α → Bool) (sortable sort : Bool) (s : Slice α) : Except Err (Slice α) :=
  match s.edges.getLast? with
  | none => .ok s
  | some e =>
    if sort && !sortable then .error .sort
    else
      let gs := uniqueGroups eq isNan lt sort 1 [] (chop e s.items)
      .ok ⟨replaceLast s.edges (gs.map (·.length)), gs.flatten.map some⟩

end

/-! ### align -/

/-- `GetCommonShape` (shape_utils.cc:33-60): the first shape of the largest rank. -/
def largest (best : List Edge) : List (List Edge) → List Edge
  | [] => best
  | es :: rest => if best.length < es.length then largest es rest else largest best rest

/-- `shape::Align` (shape_utils.cc:62-68) for two slices. -/
def align2 {α β : Type} (x : Slice α) (y : Slice β) : Except Err (Slice α × Slice β) :=
  let common := largest x.edges [y.edges]
  match broadcastTo x common with
  | .error e => .error e
  | .ok x => match broadcastTo y common with
    | .error e => .error e
    | .ok y => .ok (x, y)

/-- `shape::Align` (shape_utils.cc:62-68) for three slices. -/
def align3 {α β γ : Type} (x : Slice α) (y : Slice β) (z : Slice γ) :
    Except Err (Slice α × Slice β × Slice γ) :=
  let common := largest x.edges [y.edges, z.edges]
  match broadcastTo x common with
  | .error e => .error e
  | .ok x => match broadcastTo y common with
    | .error e => .error e
    | .ok y => match broadcastTo z common with
      | .error e => .error e
      | .ok z => .ok (x, y, z)

/-- The loop of `kd.slices.align` over its arguments (slices.cc:137-147). -/
def broadcastAll {α : Type} (common : List Edge) : List (Slice α) → Except Err (List (Slice α))
  | [] => .ok []
  | s :: rest => match broadcastTo s common with
    | .error e => .error e
    | .ok t => match broadcastAll common rest with
      | .error e => .error e
      | .ok ts => .ok (t :: ts)

/-- `kd.slices.align` (slices.cc:107-150). -/
def alignAll {α : Type} : List (Slice α) → Except Err (List (Slice α))
  | [] => .ok []
  | s :: rest => broadcastAll (largest s.edges (rest.map (·.edges))) (s :: rest)

/-! ### subslice -/

/-- `AtOp` (at.cc:33-62) for one index: negative indices count from the end. -/
def atIndex {α : Type} (items : List (Option α)) (i : Int) : Option α :=
  let i := if i < 0 then i + items.length else i
  if i < 0 ∨ i ≥ items.length then none else items.getD i.toNat none

/-- `AtOp` (at.cc:33-85) with `AtImpl` (subslice_utils.cc:48-59) for the flattened slice. -/
def atImpl {α : Type} (items : List (Option α)) (indices : Slice Int) : Slice α :=
  ⟨indices.edges, indices.items.map fun i => i.bind (atIndex items)⟩

/-- An argument of `subslice`: indices, or a range. The indices are integers (`ToArollaDenseArray`,
arolla_utils.h:119-131). -/
inductive Arg where
  | single (indices : Slice Int)
  | range (start stop : Option (Slice Int))

/-- The position of a child (subslice_utils.cc:80-89). -/
def childIndex (e : Edge) (splits : List Nat) (parent child : Int) : Option Int :=
  let size : Int := e.getD parent.toNat 0
  let child := if child < 0 then child + size else child
  if child < 0 ∨ child ≥ size then none else some (splits.getD parent.toNat 0 + child)

/-- The function of an item of each of the aligned slices (subslice_utils.cc:78-89). -/
def childOf (e : Edge) (splits : List Nat) : Option Int → Option Int → Option Int
  | some parent, some child => childIndex e splits parent child
  | _, _ => none

/-- `SubsliceChildIndicesForSingle` (subslice_utils.cc:63-94). -/
def forSingle (parents indices : Slice Int) (e : Edge) : Except Err (Slice Int) :=
  match align2 parents indices with
  | .error err => .error err
  | .ok (p, c) => .ok ⟨p.edges, List.zipWith (childOf e (splitPoints 0 e)) p.items c.items⟩

/-- `std::clamp` of a position to a group, negative ones from the end (subslice_utils.cc:143-155). -/
def clampPos (size pos : Int) : Int :=
  let pos := if pos < 0 then pos + size else pos
  if pos < 0 then 0 else if pos > size then size else pos

/-- The positions of the children in a range (subslice_utils.cc:132-160). `start` and `stop` are `none` if they
are not given, `some none` if they are missing. -/
def childRange (e : Edge) (splits : List Nat) (parent : Option Int) (start stop : Option (Option Int)) :
    List Int :=
  match parent with
  | none => []
  | some parent =>
    let size : Int := e.getD parent.toNat 0
    match start with
    | some none => []
    | _ =>
      let start := clampPos size ((start.bind id).getD 0)
      match stop with
      | some none => []
      | _ =>
        let stop := clampPos size ((stop.bind id).getD size)
        let offset := splits.getD parent.toNat 0
        (List.range (stop - start).toNat).map fun (i : Nat) => (offset : Int) + (start + i)

/-- The new dimension and the chosen positions (subslice_utils.cc:124-170). -/
def addRange (p : Slice Int) (ranges : List (List Int)) : Slice Int :=
  ⟨p.edges ++ [ranges.map (·.length)], ranges.flatten.map some⟩

/-- `SubsliceChildIndicesForRange` (subslice_utils.cc:96-173). -/
def forRange (parents : Slice Int) (start stop : Option (Slice Int)) (e : Edge) :
    Except Err (Slice Int) :=
  let splits := splitPoints 0 e
  match start, stop with
  | none, none => .ok (addRange parents (parents.items.map fun p => childRange e splits p none none))
  | some a, none => match align2 parents a with
    | .error err => .error err
    | .ok (p, a) => .ok (addRange p (List.zipWith
        (fun x a => childRange e splits x (some a) none) p.items a.items))
  | none, some b => match align2 parents b with
    | .error err => .error err
    | .ok (p, b) => .ok (addRange p (List.zipWith
        (fun x b => childRange e splits x none (some b)) p.items b.items))
  | some a, some b => match align3 parents a b with
    | .error err => .error err
    | .ok (p, a, b) => .ok (addRange p (List.zipWith
        (fun x ab => childRange e splits x (some ab.1) (some ab.2)) p.items (a.items.zip b.items)))

/-- The loop over the arguments (subslice_utils.cc:199-213). -/
def chooseAll : List Edge → List Arg → Slice Int → Except Err (Slice Int)
  | e :: es, .single i :: args, chosen => match forSingle chosen i e with
    | .error err => .error err
    | .ok chosen => chooseAll es args chosen
  | e :: es, .range a b :: args, chosen => match forRange chosen a b e with
    | .error err => .error err
    | .ok chosen => chooseAll es args chosen
  | _, _, chosen => .ok chosen

/-- The argument of the faster way (subslice_utils.cc:179-183). -/
def fastArg (rank : Nat) : List Arg → Option (Slice Int)
  | [.single i] => if rank = 1 then some i else none
  | _ => none

/-- `Subslice` (subslice_utils.cc:177-215). -/
def subslice {α : Type} (x : Slice α) (args : List Arg) : Except Err (Slice α) :=
  match args with
  | [] => .ok x
  | _ =>
    if args.length > x.rank then .error .rank
    else
      let retained := x.rank - args.length
      match fastArg x.rank args with
      | some i => .ok (atImpl x.items i)
      | none =>
        let parents := (x.edges.getD retained []).length
        let chosen : Slice Int := ⟨x.edges.take retained, (List.range parents).map fun (i : Nat) => some (i : Int)⟩
        match chooseAll (x.edges.drop retained) args chosen with
        | .error err => .error err
        | .ok chosen => .ok (atImpl x.items chosen)

/-- `Take` (slices.cc:1014-1029). -/
def take {α : Type} (x : Slice α) (indices : Slice Int) : Except Err (Slice α) :=
  if x.rank = 0 then .error .item
  else
    let shape := x.edges.take (x.rank - 1)
    if !isBroadcastable shape indices.edges && !isBroadcastable indices.edges shape then .error .shape
    else subslice x [.single indices]

/-- An argument of the operator `subslice`: an ellipsis or an argument. -/
inductive SlicingArg where
  | ellipsis
  | arg (a : Arg)

/-- Whether an argument is the ellipsis (slices.cc:591). -/
def isEllipsis : SlicingArg → Bool
  | .ellipsis => true
  | .arg _ => false

/-- The arguments without the ellipsis, and its position (slices.cc:583-595). -/
def splitEllipsis : Nat → List SlicingArg → List Arg × Option Nat
  | _, [] => ([], none)
  | i, .ellipsis :: rest =>
    let r := splitEllipsis (i + 1) rest
    (r.1, match r.2 with | some j => some j | none => some i)
  | i, .arg a :: rest =>
    let r := splitEllipsis (i + 1) rest
    (a :: r.1, r.2)

/-- `ExtractSlicingArgs` (slices.cc:578-615). -/
def slicingArgs (rank : Nat) (args : List SlicingArg) : Except Err (List Arg) :=
  let r := splitEllipsis 0 args
  if r.1.length > rank then .error .rank
  else match r.2 with
    | some pos =>
      if pos ≠ 0 then
        .ok (r.1.take pos ++ List.replicate (rank - r.1.length) (.range none none) ++ r.1.drop pos)
      else .ok r.1
    | none => .ok r.1

/-- `SubsliceOperator` (slices.cc:617-645). More than one ellipsis is an error
(slices.cc:520-527, 994-1003). -/
def subsliceOp {α : Type} (x : Slice α) (args : List SlicingArg) : Except Err (Slice α) :=
  if args.countP isEllipsis > 1 then .error .indices
  else match slicingArgs x.rank args with
    | .error e => .error e
    | .ok args => subslice x args

/-! ### group_by_indices -/

section
variable {α : Type} (eq : α → α → Bool)

/-- The state of the loop of `ProcessArray` over a group (slices.cc:478-506): the map, the number of
the next group, and for each new group its key. -/
structure Groups (α : Type) where
  map : List ((Nat × α) × Nat)
  next : Nat
  keys : List (Nat × α)

/-- The group of a key. -/
def lookup (g : Nat) (x : α) : List ((Nat × α) × Nat) → Option Nat
  | [] => none
  | ((g', y), id) :: rest => if g' = g ∧ eq y x = true then some id else lookup g x rest

/-- The loop over the items of a group of the last dimension (slices.cc:487-503). A group id is `none` for
`kUndefinedGroup`. -/
def processChunk : List (Option Nat) → List (Option α) → Groups α → List (Option Nat) × Groups α
  | some g :: ids, some x :: vals, st =>
    (match lookup eq g x st.map with
    | some id =>
      let r := processChunk ids vals st
      (some id :: r.1, r.2)
    | none =>
      let r := processChunk ids vals
        ⟨((g, x), st.next) :: st.map, st.next + 1, st.keys ++ [(g, x)]⟩
      (some st.next :: r.1, r.2))
  | _ :: ids, _ :: vals, st =>
    let r := processChunk ids vals st
    (none :: r.1, r.2)
  | _, _, st => ([], st)

/-- The order of the keys (slices.cc:440-449): pairs of the old group and the value. -/
def keyLt (lt : α → α → Bool) (keys : List (Nat × α)) (a b : Nat) : Bool :=
  match keys[a]?, keys[b]? with
  | some (g, x), some (h, y) => decide (g < h) || (decide (g = h) && lt x y)
  | _, _ => false

/-- `SortingData::Sort` (slices.cc:431-460). -/
def sortGroups (lt : α → α → Bool) (start : Nat) (keys : List (Nat × α)) (ids : List (Option Nat)) :
    List (Option Nat) :=
  let index := sortValues (keyLt lt keys) (List.range keys.length)
  ids.map fun id => id.map fun g => index.idxOf (g - start) + start

/-- `ProcessArray` (slices.cc:472-510). -/
def processChunks (lt : α → α → Bool) (sort : Bool) : Nat → List (List (Option Nat)) →
    List (List (Option α)) → List (List (Option Nat))
  | next, ids :: idss, vals :: valss =>
    let r := processChunk eq ids vals ⟨[], next, []⟩
    (if sort then sortGroups lt next r.2.keys r.1 else r.1) :: processChunks lt sort r.2.next idss valss
  | _, _, _ => []

/-- `ProcessGroupKey` (slices.cc:308-321). A slice of unknown type has no items. -/
def processKey (lt : α → α → Bool) (sort : Bool) (e : Edge) (ids : List (Option Nat))
    (vals : List (Option α)) : List (Option Nat) :=
  (processChunks eq lt sort 0 (chop e ids) (chop e vals)).flatten

/-- `ProcessGroupKey` for all the keys (slices.cc:747-769). -/
def processKeys (lt : α → α → Bool) (sort : Bool) (e : Edge) : List (Option Nat) →
    List (List (Option α)) → List (Option Nat)
  | ids, [] => ids
  | ids, vals :: rest => processKeys lt sort e (processKey eq lt sort e ids vals) rest

end

/-- The variables of `CreateFinalDataSlice` (slices.cc:328-399). -/
structure Final where
  count : List Nat
  idx : List (Option Nat)
  output : Nat
  groupSplits : List Nat
  itemSplits : List Nat
  prefixSum : Nat

/-- The first loop over a group of the last dimension (slices.cc:357-369): the counts, the number of groups, the
first group and the end of the groups. -/
def countLoop : List (Option Nat) → List Nat × Nat × Nat × Nat → List Nat × Nat × Nat × Nat
  | [], st => st
  | none :: rest, st => countLoop rest st
  | some g :: rest, (count, n, first, last) =>
    let c := count.getD g 0
    countLoop rest (count.set g (c + 1), n + (if c = 0 then 1 else 0), min first g, max last (g + 1))

/-- The second loop (slices.cc:379-388), over the groups. -/
def prefixLoop : List Nat → List Nat × Nat × List Nat → List Nat × Nat × List Nat
  | [], st => st
  | i :: rest, (count, sum, splits) =>
    let c := count.getD i 0
    if c ≠ 0 then prefixLoop rest (count.set i (sum + c - c), sum + c, splits ++ [sum + c])
    else prefixLoop rest (count.set i (sum - c), sum, splits)

/-- The third loop (slices.cc:390-398), from position `i - begin` on. -/
def placeLoop : Nat → List (Option Nat) → List Nat × List (Option Nat) × Nat →
    List Nat × List (Option Nat) × Nat
  | _, [], st => st
  | pos, none :: rest, st => placeLoop (pos + 1) rest st
  | pos, some g :: rest, (count, idx, output) =>
    let k := count.getD g 0
    placeLoop (pos + 1) rest (count.set g (k + 1), idx.set k (some pos), output + 1)

/-- One iteration of the loop over the groups of the last dimension (slices.cc:348-399). `size` is the size of
`group_id_`. -/
def finalStep (size : Nat) (chunk : List (Option Nat)) (st : Final) : Final :=
  let (count, n, first, last) := countLoop chunk (st.count, 0, size + 1, 0)
  let sum := st.prefixSum + n
  let groupSplits := st.groupSplits ++ [sum]
  if n = 0 then { st with count := count, groupSplits := groupSplits, prefixSum := sum }
  else
    let (count, _, itemSplits) :=
      prefixLoop (List.range' first (last - first)) (count, st.output, st.itemSplits)
    let (count, idx, output) := placeLoop 0 chunk (count, st.idx, st.output)
    ⟨count, idx, output, groupSplits, itemSplits, sum⟩

/-- The loop (slices.cc:348-399). -/
def finalLoop (size : Nat) : List (List (Option Nat)) → Final → Final
  | [], st => st
  | chunk :: rest, st => finalLoop size rest (finalStep size chunk st)

/-- The sizes of an edge that is given by its split points (`UnsafeFromSplitPoints`). -/
def sizesOf : List Nat → Edge
  | a :: b :: rest => (b - a) :: sizesOf (b :: rest)
  | _ => []

/-- `CreateFinalDataSlice` (slices.cc:328-408): the indices, the sizes of the groups of groups and the sizes
of the groups. -/
def createFinal (e : Edge) (ids : List (Option Nat)) : List (Option Nat) × Edge × Edge :=
  let st := finalLoop ids.length (chop e ids)
    ⟨List.replicate ids.length 0, List.replicate (ids.length - ids.count none) none, 0, [0], [0], 0⟩
  (st.idx, sizesOf st.groupSplits, sizesOf st.itemSplits)

/-- The checks of the arguments (slices.cc:749-767). -/
def checkKeys {α : Type} (sort : Bool) (sortable : Slice α → Bool) (edges : List Edge) :
    List (Slice α) → Option Err
  | [] => none
  | s :: rest =>
    if s.edges ≠ edges then some .shape
    else if sort && !sortable s then some .sort
    else checkKeys sort sortable edges rest

/-- `GroupByIndices` (slices.cc:732-778). `sortable`: the items of a slice are of one type with an
order. -/
def groupByIndices {α : Type} (eq lt : α → α → Bool) (sort : Bool) (sortable : Slice α → Bool)
    (x : Slice α) (rest : List (Slice α)) : Except Err (Slice Int) :=
  match x.edges.getLast? with
  | none => .error .item
  | some e => match checkKeys sort sortable x.edges (x :: rest) with
    | some err => .error err
    | none =>
      let ids := processKeys eq lt sort e (x.items.map fun _ => some 0) ((x :: rest).map (·.items))
      let r := createFinal e ids
      let edges := x.edges.dropLast ++ [r.2.1, r.2.2]
      if !shapeOk 1 edges then .error .shape
      else .ok ⟨edges, r.1.map fun i => i.map fun (i : Nat) => (i : Int)⟩

end Verif.SliceOps
