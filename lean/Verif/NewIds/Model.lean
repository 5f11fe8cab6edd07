/-!
Model of `NewIdsLike` (koladata/internal/op_utils/new_ids_like.cc), the new ids of `kd.clone` and
`kd.shallow_clone` (py/koladata/operators/core.py:820, 885).

A new id is the kind of the new allocation (`Allocate`, `AllocateDicts`, `AllocateLists` and
`AllocateExplicitSchemas`, which are distinct) and an offset in it. Not modelled: how allocations get their
ids, the set of allocation ids.
-/

namespace Verif.NewIds

/-- The flags of an id (object_id.h). -/
structure Id where
  isDict : Bool
  isList : Bool
  isSchema : Bool

/-- An item of a slice: an id or another value, which `NewIdsLike` skips (new_ids_like.cc:32). -/
inductive Item where
  | id (i : Id)
  | prim

/-- The four allocations (new_ids_like.cc:48-51). -/
inductive Kind where
  | dict
  | list
  | schema
  | object
deriving DecidableEq

/-- The counters (new_ids_like.cc:33-36). -/
structure Counts where
  dicts : Nat
  lists : Nat
  schemas : Nat
  objects : Nat

/-- The branches for an id (new_ids_like.cc:38-46, 70-78). -/
def kindOf (i : Id) : Kind :=
  if i.isDict then .dict else if i.isList then .list else if i.isSchema then .schema else .object

/-- `count += 1` (new_ids_like.cc:38-46) and `count++` (new_ids_like.cc:70-78). -/
def bump (c : Counts) : Kind → Counts
  | .dict => { c with dicts := c.dicts + 1 }
  | .list => { c with lists := c.lists + 1 }
  | .schema => { c with schemas := c.schemas + 1 }
  | .object => { c with objects := c.objects + 1 }

/-- The counter for a kind (new_ids_like.cc:70-78). -/
def Counts.at (c : Counts) : Kind → Nat
  | .dict => c.dicts
  | .list => c.lists
  | .schema => c.schemas
  | .object => c.objects

/-- The array of ids of a slice: items of other types are missing in it (new_ids_like.cc:30-32). -/
def idArray (l : List (Option Item)) : List (Option Id) :=
  l.map fun
    | some (.id i) => some i
    | _ => none

/-- The first loop (new_ids_like.cc:37-47), which gives the sizes of the allocations. -/
def count (l : List (Option Id)) (c : Counts) : Counts :=
  l.foldl (fun c x =>
    match x with
    | some i => bump c (kindOf i)
    | none => c) c

/-- The second loop (new_ids_like.cc:64-79). -/
def assign : Counts → List (Option Id) → List (Option (Kind × Nat))
  | _, [] => []
  | c, none :: l => none :: assign c l
  | c, some i :: l => some (kindOf i, c.at (kindOf i)) :: assign (bump c (kindOf i)) l

/-- `NewIdsLike` (new_ids_like.cc:28-85): sizes of the allocations and new ids. -/
def newIds (l : List (Option Item)) : Counts × List (Option (Kind × Nat)) :=
  (count (idArray l) ⟨0, 0, 0, 0⟩, assign ⟨0, 0, 0, 0⟩ (idArray l))

end Verif.NewIds
