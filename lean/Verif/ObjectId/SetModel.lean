import Verif.ObjectId.Model

/-! Model of `AllocationIdSet` (`koladata/internal/object_id.{h,cc}`). -/

namespace Verif.ObjectId

/-- `AllocationIdSet` (object_id.h:542-633). The hash set is a list in which only
membership matters. -/
structure AllocationIdSet where
  /-- `contains_small_allocation_id_` (h:626) -/
  containsSmall : Bool := false
  /-- `ids_` (h:630) -/
  ids : List AllocationId := []
  /-- `unsorted_ids_` (h:632) -/
  unsorted : Option (List AllocationId) := none

/-- `kMaxSortedSize` (object_id.h:622). -/
def kMaxSortedSize : Nat := 30

/-- One step of `std::sort`, as insertion into a sorted list (equal ids are
identical, so the result of a sort is determined). -/
def insertSorted (x : AllocationId) : List AllocationId → List AllocationId
  | [] => [x]
  | y :: ys => if y.lt x then y :: insertSorted x ys else x :: y :: ys

/-- `std::sort`. -/
def sortIds : List AllocationId → List AllocationId
  | [] => []
  | x :: xs => insertSorted x (sortIds xs)

/-- `std::unique` with the following `erase`: drops elements equal to the one
before them. -/
def uniqueIds : List AllocationId → List AllocationId
  | [] => []
  | [x] => [x]
  | x :: y :: ys => if x = y then uniqueIds (y :: ys) else x :: uniqueIds (y :: ys)

/-- `std::inplace_merge`: takes from the right range only what is less. -/
def mergeIds : List AllocationId → List AllocationId → List AllocationId
  | [], ys => ys
  | x :: xs, [] => x :: xs
  | x :: xs, y :: ys =>
    if y.lt x then y :: mergeIds (x :: xs) ys else x :: mergeIds xs (y :: ys)
termination_by xs ys => xs.length + ys.length

/-- `std::lower_bound`: index of the first element that is not less than `id`. (The
binary search of the library finds it because the range is sorted.) -/
def lowerBound (xs : List AllocationId) (id : AllocationId) : Nat :=
  (xs.takeWhile (fun x => x.lt id)).length

namespace AllocationIdSet

/-- `AllocationIdSet(bool)` (object_id.h:548-549). -/
def ofBool (b : Bool) : AllocationIdSet := { containsSmall := b }

/-- `AllocationIdSet(AllocationId)` (object_id.h:551-553). -/
def ofId (id : AllocationId) : AllocationIdSet :=
  { containsSmall := id.isSmall, ids := if id.isSmall then [] else [id] }

/-- `AllocationIdSet(Span)` (object_id.h:555-569). -/
def ofSpan (ids : List AllocationId) : AllocationIdSet :=
  let big := ids.filter (fun id => !id.isSmall)
  let containsSmall := big.length != ids.length
  if big.length > 1 then
    let sorted := uniqueIds (sortIds big)
    { containsSmall := containsSmall, ids := sorted,
      unsorted := if sorted.length > kMaxSortedSize then some (sorted.drop kMaxSortedSize)
        else none }
  else { containsSmall := containsSmall, ids := big }

/-- `AllocationIdSet::InsertBigAllocationSlow` (object_id.cc:173-194); `none` is the
undefined behaviour of `*unsorted_ids_` without a value (cc:189). -/
def insertBigSlow (s : AllocationIdSet) (id : AllocationId) : Option (AllocationIdSet × Bool) :=
  let sortedEnd := if s.ids.length > kMaxSortedSize then kMaxSortedSize else s.ids.length
  let it := lowerBound (s.ids.take sortedEnd) id
  if it ≠ sortedEnd ∧ s.ids[it]? = some id then some (s, false)
  else if s.ids.length ≤ kMaxSortedSize then
    let ids := s.ids.take it ++ id :: s.ids.drop it
    some ({ s with
      ids := ids,
      unsorted := if ids.length > kMaxSortedSize then some ids.getLast?.toList
        else s.unsorted }, true)
  else match s.unsorted with
    | none => none
    | some u =>
      if u.contains id then some (s, false)
      else some ({ s with ids := s.ids ++ [id], unsorted := some (id :: u) }, true)

/-- `AllocationIdSet::Insert(AllocationId)` (object_id.h:572-584). -/
def insert (s : AllocationIdSet) (id : AllocationId) : Option (AllocationIdSet × Bool) :=
  if id.isSmall then some ({ s with containsSmall := true }, !s.containsSmall)
  else match s.ids with
    | [] => some ({ s with ids := [id] }, true)
    | x :: _ => if x = id then some (s, false) else insertBigSlow s id

/-- The loop that skips the common prefix (object_id.cc:203-207). -/
def commonPrefix : List AllocationId → List AllocationId → Nat
  | x :: xs, y :: ys => if x = y then commonPrefix xs ys + 1 else 0
  | _, _ => 0

/-- `AllocationIdSet::Insert(const AllocationIdSet&)` (object_id.cc:196-233). -/
def insertSet (s new : AllocationIdSet) : AllocationIdSet :=
  let small := s.containsSmall || new.containsSmall
  if s.ids.isEmpty then { containsSmall := small, ids := new.ids, unsorted := new.unsorted }
  else
    let offset := commonPrefix s.ids new.ids
    if offset = new.ids.length then { s with containsSmall := small }
    else
      let appended := s.ids ++ new.ids.drop offset
      let ids :=
        if appended.length ≤ kMaxSortedSize then
          s.ids.take offset ++ uniqueIds (mergeIds (s.ids.drop offset) (new.ids.drop offset))
        else uniqueIds (sortIds appended)
      let unsorted :=
        if ids.length > kMaxSortedSize then
          some (ids.drop kMaxSortedSize ++ s.unsorted.getD [])
        else s.unsorted
      { containsSmall := small, ids := ids, unsorted := unsorted }

/-- `InsertSmallAllocationId` (object_id.h:603). -/
def insertSmall (s : AllocationIdSet) : AllocationIdSet := { s with containsSmall := true }

/-- `operator==` (object_id.cc:235-259); `none` is the undefined behaviour of
`*lhs.unsorted_ids_` without a value (cc:245). -/
def eq (lhs rhs : AllocationIdSet) : Option Bool :=
  if ¬ (lhs.containsSmall = rhs.containsSmall ∧ lhs.ids.length = rhs.ids.length) then some false
  else if lhs.ids.length > kMaxSortedSize then
    match lhs.unsorted with
    | none => none
    | some u =>
      let lhsSet := lhs.ids.take kMaxSortedSize ++ u
      some (rhs.ids.all (fun id => lhsSet.contains id))
  else some (lhs.ids == rhs.ids)

end AllocationIdSet

/-- Ways to build a set with the public interface. -/
inductive SetExpr where
  /-- `AllocationIdSet()` or `AllocationIdSet(bool)` -/
  | ofBool (b : Bool)
  /-- `AllocationIdSet(id)` -/
  | ofId (id : AllocationId)
  /-- `AllocationIdSet(span)` -/
  | ofSpan (ids : List AllocationId)
  /-- `set.Insert(id)` -/
  | insert (e : SetExpr) (id : AllocationId)
  /-- `set.Insert(other)` -/
  | insertSet (e other : SetExpr)
  /-- `set.InsertSmallAllocationId()` -/
  | insertSmall (e : SetExpr)

/-- Runs the calls. -/
def SetExpr.eval : SetExpr → Option AllocationIdSet
  | .ofBool b => some (.ofBool b)
  | .ofId id => some (.ofId id)
  | .ofSpan ids => some (.ofSpan ids)
  | .insert e id => e.eval.bind fun s => (s.insert id).map (·.1)
  | .insertSet e other => e.eval.bind fun s => other.eval.map fun o => s.insertSet o
  | .insertSmall e => e.eval.map (·.insertSmall)

end Verif.ObjectId
