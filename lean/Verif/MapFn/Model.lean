import Verif.SliceOps.Model

/-!
Model of `kd.functor.map` and `kd.functor.map_reduce_update` (`koladata/functor/map.cc`,
`koladata/functor/map_operator.cc`), with `ops::ConcatOrStack` for items
(`koladata/operators/slices.cc`), `AlignSchemas` (`koladata/casting.cc`) and
`AdoptionQueue::GetCommonOrMergedDb` for bags (`koladata/adoption_utils.cc`). Slices and
`shape::Align` are those of `Verif/SliceOps`.

Simplified: the bags of slices are not modelled, and all functors have one schema, that calls do not
depend on.
-/

namespace Verif.MapFn

open Verif.SliceOps (Edge Slice alignAll)

/-- What a functor returns: a slice of rank 0, another slice, a bag (which may be null), or something
else. -/
inductive Value (α S : Type) where
  | item (x : Option α) (schema : S)
  | slice (edges : List Edge)
  | bag (id : Option Nat)
  | other
deriving DecidableEq

/-- An item with its schema. -/
abbrev Datum (α S : Type) := Option α × S

/-- What the model leaves open: calls of functors (`CallFunctorWithCompilationCache`, modelled in
`Verif/Functor`), `CommonSchemaAggregator`, `CastTo`, and the contents of bags with `MergeInplace`. -/
structure Kit (α S C : Type) where
  call : α → List (Datum α S) → List String → Except String (Value α S)
  noneSchema : S
  common : List S → Option S
  cast : S → Datum α S → Except String (Option α)
  emptyBag : C
  mergeInplace : C → Nat → Except String C

/-- The errors. -/
inductive Err where
  | broadcast
  | call (message : String)
  | notDataItem
  | notItem (edges : List Edge)
  | notBag
  | noCommonSchema
  | cast (message : String)
  | merge (message : String)
  | internal
deriving DecidableEq

/-- A call of a functor. -/
structure Call (α S : Type) where
  functor : α
  args : List (Datum α S)
  names : List String
deriving DecidableEq

variable {α S C σ : Type} [DecidableEq S]

/-- The loop over the arguments in `CallFunctorOnItem` (map.cc:56-62): whether one makes it return
`nullopt`. -/
def someMissing (includeMissing : Bool) : List (Datum α S) → Bool
  | [] => false
  | a :: args => if !includeMissing && a.1.isNone then true else someMissing includeMissing args

/-- `CallFunctorOnItem` (map.cc:48-66), with the calls that were made. -/
def callOnItem (K : Kit α S C) (names : List String) (includeMissing : Bool) (fn : Option α)
    (args : List (Datum α S)) : List (Call α S) × Except Err (Option (Value α S)) :=
  match fn with
  | none => ([], .ok none)
  | some f =>
    if someMissing includeMissing args then ([], .ok none)
    else
      match K.call f args names with
      | .error e => ([⟨f, args, names⟩], .error (.call e))
      | .ok v => ([⟨f, args, names⟩], .ok (some v))

/-- `slice()[i]`. -/
def itemAt (s : Slice α) (i : Nat) : Option α := (s.items[i]?).join

/-- The loop of `ForEachAlignedItem` (map.cc:90-104): `n` items from `i` on. -/
def eachItem (callback : Option α → List (Datum α S) → σ → σ × Option Err) (fns : Slice α)
    (args : List (Slice α × S)) : Nat → Nat → σ → σ × Option Err
  | 0, _, st => (st, none)
  | n + 1, i, st =>
    match callback (itemAt fns i) (args.map fun a => (itemAt a.1 i, a.2)) st with
    | (st, some e) => (st, some e)
    | (st, none) => eachItem callback fns args n (i + 1) st

/-- `ForEachAlignedItem` (map.cc:73-106). -/
def forEachAligned (functors : Slice α) (args : List (Slice α × S))
    (callback : Option α → List (Datum α S) → σ → σ × Option Err) (st : σ) :
    σ × Except Err (List Edge) :=
  match alignAll (args.map Prod.fst ++ [functors]) with
  | .error _ => (st, .error .broadcast)
  | .ok aligned =>
    match aligned.getLast? with
    | none => (st, .error .internal)
    | some fns =>
      let alignedArgs := aligned.dropLast.zip (args.map Prod.snd)
      if fns.rank = 0 then
        match callback (itemAt fns 0) (alignedArgs.map fun a => (itemAt a.1 0, a.2)) st with
        | (st, some e) => (st, .error e)
        | (st, none) => (st, .ok fns.edges)
      else
        match eachItem callback fns alignedArgs fns.items.length 0 st with
        | (st, some e) => (st, .error e)
        | (st, none) => (st, .ok fns.edges)

/-- What the callback accumulates, and the calls that were made. -/
structure Acc (α S R : Type) where
  results : List R
  calls : List (Call α S)

/-- The callback of `map` (map.cc:121-145). -/
def mapCallback (K : Kit α S C) (names : List String) (includeMissing : Bool) (fn : Option α)
    (args : List (Datum α S)) (st : Acc α S (Datum α S)) : Acc α S (Datum α S) × Option Err :=
  match callOnItem K names includeMissing fn args with
  | (calls, .error e) => (⟨st.results, st.calls ++ calls⟩, some e)
  | (calls, .ok none) => (⟨st.results ++ [(none, K.noneSchema)], st.calls ++ calls⟩, none)
  | (calls, .ok (some (.item x s))) => (⟨st.results ++ [(x, s)], st.calls ++ calls⟩, none)
  | (calls, .ok (some (.slice es))) => (⟨st.results, st.calls ++ calls⟩, some (.notItem es))
  | (calls, .ok (some (.bag _))) => (⟨st.results, st.calls ++ calls⟩, some .notDataItem)
  | (calls, .ok (some .other)) => (⟨st.results, st.calls ++ calls⟩, some .notDataItem)

/-- The loop of `AlignSchemas` (casting.cc:643-651). -/
def castAll (K : Kit α S C) (s : S) : List (Datum α S) → Except Err (List (Option α))
  | [] => .ok []
  | d :: ds =>
    match (if d.2 ≠ s then K.cast s d else .ok d.1) with
    | .error e => .error (.cast e)
    | .ok x =>
      match castAll K s ds with
      | .error e => .error e
      | .ok xs => .ok (x :: xs)

/-- `ConcatOrStack` with `stack` and items (slices.cc:152-215), `AlignSchemas` (casting.cc:618-656):
the items of the flat slice and its schema. -/
def stackItems (K : Kit α S C) (ds : List (Datum α S)) : Except Err (List (Option α) × S) :=
  if ds.isEmpty then .ok ([], K.noneSchema)
  else
    match K.common (ds.map Prod.snd) with
    | none => .error .noCommonSchema
    | some s =>
      match castAll K s ds with
      | .error e => .error e
      | .ok xs => .ok (xs, s)

/-- `MapFunctorWithCompilationCache` (map.cc:110-167): the calls that were made, and the result. -/
def mapFunctor (K : Kit α S C) (functors : Slice α) (args : List (Slice α × S))
    (names : List String) (includeMissing : Bool) :
    List (Call α S) × Except Err (Slice α × S) :=
  match forEachAligned functors args (mapCallback K names includeMissing) ⟨[], []⟩ with
  | (st, .error e) => (st.calls, .error e)
  | (st, .ok edges) =>
    if edges.length = 0 then
      match st.results with
      | [] => (st.calls, .error .internal)
      | d :: _ => (st.calls, .ok (⟨[], [d.1]⟩, d.2))
    else
      match stackItems K st.results with
      | .error e => (st.calls, .error e)
      | .ok r => (st.calls, .ok (⟨edges, r.1⟩, r.2))

/-- `kd.functor.map` (map_operator.cc:54-86): the values of the keyword arguments follow the positional
arguments. -/
def mapOperator (K : Kit α S C) (functors : Slice α) (args : List (Slice α × S))
    (kwargs : List (String × Slice α × S)) (includeMissing : Bool) :
    List (Call α S) × Except Err (Slice α × S) :=
  mapFunctor K functors (args ++ kwargs.map Prod.snd) (kwargs.map Prod.fst) includeMissing

/-! ### map_reduce_update -/

/-- The callback of `map_reduce_update` (map.cc:177-196), with `bags_to_merge_`. -/
def updateCallback (K : Kit α S C) (names : List String) (includeMissing : Bool) (fn : Option α)
    (args : List (Datum α S)) (st : Acc α S Nat) : Acc α S Nat × Option Err :=
  match callOnItem K names includeMissing fn args with
  | (calls, .error e) => (⟨st.results, st.calls ++ calls⟩, some e)
  | (calls, .ok none) => (⟨st.results, st.calls ++ calls⟩, none)
  | (calls, .ok (some (.bag none))) => (⟨st.results, st.calls ++ calls⟩, none)
  | (calls, .ok (some (.bag (some b)))) => (⟨st.results ++ [b], st.calls ++ calls⟩, none)
  | (calls, .ok (some (.item _ _))) => (⟨st.results, st.calls ++ calls⟩, some .notBag)
  | (calls, .ok (some (.slice _))) => (⟨st.results, st.calls ++ calls⟩, some .notBag)
  | (calls, .ok (some .other)) => (⟨st.results, st.calls ++ calls⟩, some .notBag)

/-- `AdoptInto` (adoption_utils.cc:43-57) for bags, into a new bag. -/
def adoptInto (K : Kit α S C) (content : C) (visited : List Nat) : List Nat → Except Err C
  | [] => .ok content
  | b :: bs =>
    if visited.contains b then adoptInto K content visited bs
    else
      match K.mergeInplace content b with
      | .error e => .error (.merge e)
      | .ok content => adoptInto K content (b :: visited) bs

/-- The bag that `map_reduce_update` returns: none, one that a functor returned, or a new immutable
one. -/
inductive ResultBag (C : Type) where
  | null
  | same (id : Nat)
  | merged (content : C)

/-- The first loop of `GetCommonOrMergedDb` (adoption_utils.cc:84-91): whether a bag is not the first
one. -/
def hasMultiple (single : Nat) : List Nat → Bool
  | [] => false
  | b :: bs => if b ≠ single then true else hasMultiple single bs

/-- `GetCommonOrMergedDb` (adoption_utils.cc:78-116) for bags. -/
def commonOrMerged (K : Kit α S C) (bags : List Nat) : Except Err (ResultBag C) :=
  match bags with
  | [] => .ok .null
  | b :: bs =>
    if hasMultiple b bs then
      match adoptInto K K.emptyBag [] (b :: bs) with
      | .error e => .error e
      | .ok c => .ok (.merged c)
    else .ok (.same b)

/-- `MapReduceUpdateFunctorWithCompilationCache` (map.cc:169-199). -/
def mapReduceUpdate (K : Kit α S C) (functors : Slice α) (args : List (Slice α × S))
    (names : List String) (includeMissing : Bool) :
    List (Call α S) × Except Err (ResultBag C) :=
  match forEachAligned functors args (updateCallback K names includeMissing) ⟨[], []⟩ with
  | (st, .error e) => (st.calls, .error e)
  | (st, .ok _) => (st.calls, commonOrMerged K st.results)

/-- `kd.functor.map_reduce_update` (map_operator.cc:90-125). -/
def mapReduceUpdateOperator (K : Kit α S C) (functors : Slice α) (args : List (Slice α × S))
    (kwargs : List (String × Slice α × S)) (includeMissing : Bool) :
    List (Call α S) × Except Err (ResultBag C) :=
  mapReduceUpdate K functors (args ++ kwargs.map Prod.snd) (kwargs.map Prod.fst) includeMissing

end Verif.MapFn
