/-!
Model of `kd_ext.contrib.flatten_cyclic_references` (koladata/contrib/flatten_cyclic_references.cc):
copies of items as trees.

An item is an item with its schema (`ItemWithSchema`). What the bag has for an item is given by `next`:
its transitions (attributes, list items, dict values) with keys and values, or the error of reading
them. Simplified: schemas and metadata are not copied in the model (they keep their ids or get ids
derived from their object), and primitives, missing values, ItemIds and schemas are all leaves that
are kept. New ids are numbers, in the order of allocation. `max_recursion_depth` is not negative.
-/

namespace Verif.Flatten

variable {N K L E : Type} [DecidableEq N]

/-- The value of a transition (flatten_cyclic_references.cc:289-313): a value that is kept or an item
that is copied. -/
inductive Value (N L : Type) where
  | leaf (l : L)
  | item (n : N)
  deriving DecidableEq, Repr

/-- The result of `Previsit` (flatten_cyclic_references.cc:289-313). -/
inductive Out (L : Type) where
  | leaf (l : L)
  | clone (c : Nat)
  | missing
  deriving DecidableEq, Repr

/-- `ClonedItemOnStack` (flatten_cyclic_references.cc:160-164). -/
structure Entry (N : Type) where
  orig : N
  clone : Nat
  visited : Bool
  deriving DecidableEq, Repr

/-- The members of `FlattenCyclicReferencesOp` (flatten_cyclic_references.cc:442-452), the next new id
and the writes to the new bag: item, key, value. -/
structure St (N K L : Type) where
  stack : List (Entry N)
  times : N → Nat
  fresh : Nat
  written : List (Nat × K × Out L)

/-- `Previsit` (flatten_cyclic_references.cc:289-313). -/
def previsit (depth : Nat) (st : St N K L) : Value N L → Out L × St N K L
  | .leaf l => (.leaf l, st)
  | .item n =>
    if st.times n > depth then (.missing, st)
    else (.clone st.fresh,
      { st with fresh := st.fresh + 1, stack := ⟨n, st.fresh, false⟩ :: st.stack })

/-- The loop over transitions, with `SaveTransition` (flatten_cyclic_references.cc:220-243). -/
def saveAll (depth : Nat) (c : Nat) : List (K × Value N L) → St N K L → St N K L
  | [], st => st
  | (k, v) :: rest, st =>
    saveAll depth c rest
      { (previsit depth st v).2 with
        written := (previsit depth st v).2.written ++ [(c, k, (previsit depth st v).1)] }

/-- The loop that removes visited items from the stack (flatten_cyclic_references.cc:248-251). -/
def popVisited : List (Entry N) → (N → Nat) → List (Entry N) × (N → Nat)
  | [], times => ([], times)
  | e :: es, times =>
    if e.visited then popVisited es (fun m => if m = e.orig then times m - 1 else times m)
    else (e :: es, times)

/-- `popVisited` on the state (flatten_cyclic_references.cc:248-251). -/
def popSt (st : St N K L) : St N K L :=
  { st with stack := (popVisited st.stack st.times).1, times := (popVisited st.stack st.times).2 }

/-- The start of the loop body: the top of the stack is marked and counted
(flatten_cyclic_references.cc:191-199). -/
def mark (st : St N K L) (e : Entry N) (es : List (Entry N)) : St N K L :=
  { st with
    stack := { e with visited := true } :: es,
    times := fun m => if m = e.orig then st.times m + 1 else st.times m }

/-- The body of the loop of `DepthFirstPrevisitItemsAndSchemas` (flatten_cyclic_references.cc:191-251)
for the top `e` of the stack. -/
def step (next : N → Except E (List (K × Value N L))) (depth : Nat) (st : St N K L) (e : Entry N)
    (es : List (Entry N)) : Except E (St N K L) :=
  if (mark st e es).times e.orig ≤ depth + 1 then
    match next e.orig with
    | .error err => .error err
    | .ok ks => .ok (popSt (saveAll depth e.clone ks (mark st e es)))
  else .ok (popSt (mark st e es))

/-- The loop of `DepthFirstPrevisitItemsAndSchemas` (flatten_cyclic_references.cc:190-252). `none` if it
needs more than `fuel` steps. -/
def loop (next : N → Except E (List (K × Value N L))) (depth : Nat) :
    Nat → St N K L → Option (Except E (St N K L))
  | fuel, st =>
    match st.stack with
    | [] => some (.ok st)
    | e :: es =>
      match fuel with
      | 0 => none
      | fuel + 1 =>
        match step next depth st e es with
        | .error err => some (.error err)
        | .ok st' => loop next depth fuel st'

/-- The loop of `TraverseSlice` over the items of the slice (flatten_cyclic_references.cc:168-173). -/
def previsitAll (depth : Nat) : List (Value N L) → St N K L → List (Out L) × St N K L
  | [], st => ([], st)
  | v :: vs, st =>
    ((previsit depth st v).1 :: (previsitAll depth vs (previsit depth st v).2).1,
      (previsitAll depth vs (previsit depth st v).2).2)

/-- The members of a new `FlattenCyclicReferencesOp` (flatten_cyclic_references.cc:133-140). -/
def empty : St N K L := { stack := [], times := fun _ => 0, fresh := 0, written := [] }

/-- `TraverseSlice` (flatten_cyclic_references.cc:166-176): the new slice and what is written to the new
bag. -/
def flatten (next : N → Except E (List (K × Value N L))) (depth fuel : Nat) (roots : List (Value N L)) :
    Option (Except E (List (Out L) × List (Nat × K × Out L))) :=
  match loop next depth fuel (previsitAll depth roots empty).2 with
  | none => none
  | some (.error e) => some (.error e)
  | some (.ok st) => some (.ok ((previsitAll (K := K) depth roots empty).1, st.written))

end Verif.Flatten
