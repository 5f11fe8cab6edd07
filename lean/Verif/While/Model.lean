/-!
Model of `kd.functor.while_` (`koladata/functor/while.cc`, `koladata/functor/while_operator.cc`,
`py/koladata/operators/functor.py`).
-/

namespace Verif.While

/-- The schemas that the condition distinguishes. -/
inductive Schema where
  | mask
  | object
  | other (n : Nat)
  deriving DecidableEq

/-- The items that the condition distinguishes. -/
inductive Item where
  | missing
  | unit
  | other (n : Nat)
  deriving DecidableEq

/-- A `DataSlice` as the condition sees it: its item, if it has rank 0, and its schema. -/
structure Slice where
  isItem : Bool
  schema : Schema
  item : Item

/-- What the model leaves open: values, their types, and what calls of functors return
(`CallFunctorWithCompilationCache`, modelled in `Verif/Functor`). `fields` are the fields of a
namedtuple, and `items` those of an iterable. -/
structure Kit (F V T : Type) where
  type : V → T
  slice : V → Option Slice
  fields : V → Option (List (String × V))
  items : V → List V
  call : F → List V → List String → Except String V
  nodup : ∀ v fs, fields v = some fs → (fs.map Prod.fst).Nodup

/-- The errors. -/
inductive Err where
  | counts
  | numYields
  | duplicate (name : String)
  | call (message : String)
  | notSlice
  | notMask
  | notTuple
  | unknownField (name : String)
  | type (name : String)
  | internal
  deriving DecidableEq

/-- `var_values` and `yields_var_values` (while.cc:48, 78-83). -/
structure State (V : Type) where
  vars : List V
  yields : List (List V)

variable {F V T : Type} [DecidableEq T]

/-- The loop that fills `var_name_to_index` (while.cc:60-67). -/
def firstDuplicate : List String → List String → Option String
  | [], _ => none
  | name :: names, seen =>
    if seen.contains name then some name else firstDuplicate names (name :: seen)

/-- `var_name_to_index.find` (while.cc:125). -/
def indexOf (name : String) : List String → Option Nat
  | [] => none
  | n :: names =>
    if n = name then some 0
    else
      match indexOf name names with
      | none => none
      | some i => some (i + 1)

/-- The check of the condition (while.cc:92-110): whether it is present. -/
def condition (K : Kit F V T) (v : V) : Except Err Bool :=
  match K.slice v with
  | none => .error .notSlice
  | some s =>
    if s.isItem = false ∨ (s.schema ≠ .mask ∧ s.schema ≠ .object) ∨
        (s.item ≠ .missing ∧ s.item ≠ .unit) then
      .error .notMask
    else .ok (s.item ≠ .missing)

/-- One field of the namedtuple that the body returns (while.cc:124-147). -/
def applyField (K : Kit F V T) (names : List String) (numYields : Nat) (f : String × V)
    (st : State V) : Except Err (State V) :=
  match indexOf f.1 names with
  | none => .error (.unknownField f.1)
  | some i =>
    match st.vars[i]? with
    | none => .error .internal
    | some old =>
      if K.type old ≠ K.type f.2 then .error (.type f.1)
      else if i < numYields then
        .ok { st with yields := st.yields.modify i fun vs => vs ++ [f.2] }
      else .ok { st with vars := st.vars.set i f.2 }

/-- The loop over the fields (while.cc:123-148). -/
def applyFields (K : Kit F V T) (names : List String) (numYields : Nat) :
    List (String × V) → State V → Except Err (State V)
  | [], st => .ok st
  | f :: fs, st =>
    match applyField K names numYields f st with
    | .error e => .error e
    | .ok st => applyFields K names numYields fs st

/-- A call with `nonyield_var_value_refs` and `nonyield_var_names` (while.cc:69-75, 87-91, 112-117). -/
def callWith (K : Kit F V T) (fn : F) (names : List String) (numYields : Nat) (st : State V) :
    Except Err V :=
  match K.call fn (st.vars.drop numYields) (names.drop numYields) with
  | .error e => .error (.call e)
  | .ok v => .ok v

/-- One iteration (while.cc:86-149); `none` is `break`. -/
def iteration (K : Kit F V T) (cond body : F) (names : List String) (numYields : Nat)
    (st : State V) : Except Err (Option (State V)) :=
  match callWith K cond names numYields st with
  | .error e => .error e
  | .ok c =>
    match condition K c with
    | .error e => .error e
    | .ok false => .ok none
    | .ok true =>
      match callWith K body names numYields st with
      | .error e => .error e
      | .ok u =>
        match K.fields u with
        | none => .error .notTuple
        | some fs =>
          match applyFields K names numYields fs st with
          | .error e => .error e
          | .ok st => .ok (some st)

/-- The loop (while.cc:85-149), for at most a number of iterations; `none` is a loop that has not
ended by then. -/
def loop (K : Kit F V T) (cond body : F) (names : List String) (numYields : Nat) :
    Nat → State V → Option (Except Err (State V))
  | 0, _ => none
  | n + 1, st =>
    match iteration K cond body names numYields st with
    | .error e => some (.error e)
    | .ok none => some (.ok st)
    | .ok (some st) => loop K cond body names numYields n st

/-- A value in the result: that of a variable, or the sequence of the values of a variable that
yields. -/
inductive Out (V : Type) where
  | value (v : V)
  | sequence (vs : List V)

/-- The result (while.cc:151-164). -/
def finish (st : State V) : List (Out V) :=
  st.yields.map .sequence ++ (st.vars.drop st.yields.length).map .value

/-- The start (while.cc:69-83). -/
def start (values : List V) (numYields : Nat) : State V :=
  ⟨values, (values.take numYields).map fun v => [v]⟩

/-- `WhileWithCompilationCache` (while.cc:45-167). -/
def whileLoop (K : Kit F V T) (cond body : F) (names : List String) (values : List V)
    (numYields : Int) (iterations : Nat) : Option (Except Err (List (Out V))) :=
  if values.length ≠ names.length then some (.error .counts)
  else if numYields < 0 ∨ numYields > names.length then some (.error .numYields)
  else
    match firstDuplicate names [] with
    | some name => some (.error (.duplicate name))
    | none =>
      match loop K cond body names numYields.toNat iterations
          (start values numYields.toNat) with
      | none => none
      | some (.error e) => some (.error e)
      | some (.ok st) => some (.ok (finish st))

/-- `returns` of `kd.functor.while_` (while_operator.cc:55-103, functor.py:944-947). -/
def whileReturns (K : Kit F V T) (cond body : F) (returns : V) (state : List (String × V))
    (iterations : Nat) : Option (Except Err V) :=
  match whileLoop K cond body ("returns" :: state.map Prod.fst) (returns :: state.map Prod.snd) 0
      iterations with
  | none => none
  | some (.error e) => some (.error e)
  | some (.ok (.value v :: _)) => some (.ok v)
  | some (.ok _) => some (.error .internal)

/-- `yields` of `kd.functor.while_` (while_operator.cc:55-103, functor.py:948-957): the items of the
chained iterables. -/
def whileYields (K : Kit F V T) (cond body : F) (yields : V) (state : List (String × V))
    (iterations : Nat) : Option (Except Err (List V)) :=
  match whileLoop K cond body ("yields" :: state.map Prod.fst) (yields :: state.map Prod.snd) 1
      iterations with
  | none => none
  | some (.error e) => some (.error e)
  | some (.ok (.sequence vs :: _)) => some (.ok (vs.flatMap K.items))
  | some (.ok _) => some (.error .internal)

end Verif.While
