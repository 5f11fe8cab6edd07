import Verif.StreamLoop.Routine

/-!
Model of `stream.reduce`, of `stream.for_` and `stream.while_` with `returns` or `yields`:
`koladata/functor/parallel/stream_reduce.cc`, `stream_for.cc`, `stream_while.cc` and
`stream_loop_internal.cc`, as programs of routines (Verif.StreamLoop.Routine).

Functors are functions of their arguments. `StreamForHooks` and `StreamWhileHooks` are one program: a
while loop has no input. A tuple of values is a list; error messages are functions of what they name, and
the notes that the callers of `Vars::Update` add to its errors are left out.
-/

namespace Verif.StreamLoop

open Verif.StreamChain (Input)

variable {V T S : Type}

/-- A named tuple: its fields have different names. -/
structure NamedTuple (V : Type) where
  fields : List (String × V)
  nodup : (fields.map Prod.fst).Nodup

/-- What the item of a slice holds. -/
inductive Held where
  | unit
  | missing
  | other
  deriving DecidableEq

/-- The schema of a slice. -/
inductive Schema where
  | mask
  | object
  | other
  deriving DecidableEq

/-- What `ParseLoopConditionDataSlice` looks at. -/
structure Slice where
  isItem : Bool
  held : Held
  schema : Schema
  deriving DecidableEq

/-- What a condition functor returns: a stream of data slices, or a value of another type. -/
inductive Condition (V S : Type) where
  | value (v : V)
  | stream (items : List V) (ending : S)

/-- The errors of `Vars::Update`. -/
inductive UpdateError where
  | notTuple
  | unexpected (name : String)
  | wrongType (name : String)
  deriving DecidableEq

/-- The errors of the loop condition. -/
inductive ConditionError where
  | notSlice
  | notMask
  | emptyStream
  deriving DecidableEq

/-- The arguments of `StreamForReturns`, `StreamForYields`, `StreamWhileReturns` and `StreamWhileYields`
(stream_for.cc:229-268, 363-403, stream_while.cc:171-207, 278-314). -/
structure Loop (V T S : Type) where
  /-- the type of a value -/
  typeOf : V → T
  /-- a value as a data slice -/
  slice : V → Option Slice
  ok : S
  /-- the status with which a writer closes the stream when it is destroyed -/
  orphaned : S
  updateError : UpdateError → S
  conditionError : ConditionError → S
  /-- whether this is a loop with `yields` -/
  yields : Bool
  /-- `returns` or the name of the parameter for `yields` -/
  lastName : String
  /-- `initial_returns` or `initial_yields` -/
  lastValue : V
  state : NamedTuple V
  /-- the items and the status of the input stream, for a for loop -/
  input : Option (List V × S)
  /-- `none` is a value that is not a named tuple -/
  body : Option V → List (String × V) → Except S (Option (NamedTuple V))
  finalize : Option (List (String × V) → Except S (Option (NamedTuple V)))
  condition : Option (List (String × V) → Except S (Condition V S))

/-- A variable with whether its pointer is the one of its initial value. -/
structure Var (V : Type) where
  name : String
  value : V
  initial : Bool

/-- An assignment of `Vars::Update` (stream_loop_internal.cc:121-139). -/
def assign [DecidableEq T] (typeOf : V → T) (name : String) (value : V) :
    List (Var V) → Except UpdateError (List (Var V))
  | [] => .error (.unexpected name)
  | x :: xs =>
    if x.name = name then
      if typeOf x.value ≠ typeOf value then .error (.wrongType name)
      else .ok ({ x with value, initial := false } :: xs)
    else
      match assign typeOf name value xs with
      | .error e => .error e
      | .ok xs => .ok (x :: xs)

/-- The assignments of `Vars::Update`. -/
def assignAll [DecidableEq T] (typeOf : V → T) (vars : List (Var V)) :
    List (String × V) → Except UpdateError (List (Var V))
  | [] => .ok vars
  | (name, value) :: fields =>
    match assign typeOf name value vars with
    | .error e => .error e
    | .ok vars => assignAll typeOf vars fields

/-- `Vars::Update` (stream_loop_internal.cc:114-141). -/
def update [DecidableEq T] (typeOf : V → T) (vars : List (Var V)) :
    Option (NamedTuple V) → Except UpdateError (List (Var V))
  | none => .error .notTuple
  | some t => assignAll typeOf vars t.fields

/-- `ParseLoopConditionDataSlice` (stream_loop_internal.cc:58-73). -/
def parseSlice (x : Slice) : Except ConditionError Bool :=
  if x.isItem then
    if x.held = .unit then .ok true
    else if x.held = .missing && (x.schema = .mask || x.schema = .object) then .ok false
    else .error .notMask
  else .error .notMask

/-- `ParseLoopCondition` for a value that is not a stream of data slices, and `ParseLoopConditionStream`
for an item (stream_loop_internal.cc:43-56, 78-87). -/
def parseValue : Option Slice → Except ConditionError Bool
  | none => .error .notSlice
  | some x => parseSlice x

/-- The variables, the last one of which is `returns` or `yields` (stream_for.cc:247-258,
stream_while.cc:188-197). The place for the item of the input is left out. -/
def Loop.vars (c : Loop V T S) : List (Var V) :=
  c.state.fields.map (fun x => { name := x.1, value := x.2, initial := true }) ++
    [{ name := c.lastName, value := c.lastValue, initial := true }]

/-- The variables that the functors see (stream_for.cc:183, 299-300, stream_while.cc:143, 236-237). -/
def Loop.visible (c : Loop V T S) (vars : List (Var V)) : List (String × V) :=
  (if c.yields then vars.dropLast else vars).map fun x => (x.name, x.value)

/-- Where the hooks are (stream_for.cc:64-153, stream_while.cc:67-116). -/
inductive Place (V S : Type) where
  /-- at the beginning of `CallLoopCondition` -/
  | condition (vars : List (Var V))
  /-- before the call of the condition functor -/
  | callCondition (vars : List (Var V))
  | openCondition (vars : List (Var V)) (items : List V) (ending : S)
  /-- in `ParseLoopConditionStream` before `TryRead` -/
  | parse (vars : List (Var V)) (reader : Nat)
  /-- before `TryRead` of the input -/
  | read (vars : List (Var V))
  /-- at the beginning of `CallLoopBody` -/
  | body (vars : List (Var V)) (item : Option V)
  | callBody (vars : List (Var V)) (item : Option V)
  /-- in `MaybeYield` after the body -/
  | yieldBody (vars : List (Var V))
  /-- at the beginning of `CallLoopFinalize` -/
  | finalize (vars : List (Var V))
  | callFinalize (vars : List (Var V))
  /-- in `MaybeYield` after the finalizer -/
  | yieldFinalize (vars : List (Var V))
  /-- in `OnSuccess` -/
  | success (vars : List (Var V))
  /-- before `TryClose` -/
  | close (s : S)
  /-- before `return nullptr` -/
  | stop

/-- What follows the loop condition (stream_for.cc:97-132, stream_while.cc:91-102). -/
def Loop.decide (c : Loop V T S) (vars : List (Var V)) : Except ConditionError Bool → Place V S
  | .error e => .close (c.conditionError e)
  | .ok false => .success vars
  | .ok true => if c.input.isSome then .read vars else .body vars none

/-- The condition functor (stream_for.cc:202-210, 326-336, stream_while.cc:141-145, 232-239). -/
def Loop.callCondition (c : Loop V T S) (vars : List (Var V)) : Place V S :=
  match c.condition with
  | none => c.decide vars (.ok true)
  | some f =>
    match f (c.visible vars) with
    | .error s => .close s
    | .ok (.value v) => c.decide vars (parseValue (c.slice v))
    | .ok (.stream items ending) => .openCondition vars items ending

/-- The end of a condition stream (stream_loop_internal.cc:88-93). -/
def Loop.conditionClosed [DecidableEq S] (c : Loop V T S) (s : S) : Place V S :=
  .close (if s ≠ c.ok then s else c.conditionError .emptyStream)

/-- `Update` with what a functor returned, and what follows (stream_for.cc:180-200, 295-324,
stream_while.cc:147-154, 241-252). -/
def Loop.called [DecidableEq T] (c : Loop V T S) (vars : List (Var V)) (next yield : List (Var V) → Place V S) :
    Except S (Option (NamedTuple V)) → Place V S
  | .error s => .close s
  | .ok t =>
    match update c.typeOf vars t with
    | .error e => .close (c.updateError e)
    | .ok vars => if c.yields then yield vars else next vars

/-- The end of `MaybeYield` (stream_for.cc:349, stream_while.cc:265): the initial value is restored. -/
def Loop.restore (c : Loop V T S) (vars : List (Var V)) : List (Var V) :=
  vars.dropLast ++ [{ name := c.lastName, value := c.lastValue, initial := true }]

/-- `MaybeYield` (stream_for.cc:341-351, stream_while.cc:257-267). -/
def Loop.maybeYield (c : Loop V T S) (vars : List (Var V)) (next : List (Var V) → Place V S) :
    Action V S (Place V S) :=
  match vars.getLast? with
  | none => .pure (next vars)
  | some x => if x.initial then .pure (next vars) else .tryWrite x.value (next (c.restore vars)) (next vars)

/-- `OnSuccess` (stream_for.cc:212-216, 338, stream_while.cc:156-160, 254). -/
def Loop.onSuccess (c : Loop V T S) (vars : List (Var V)) : Action V S (Place V S) :=
  if c.yields then .pure (.close c.ok)
  else
    match vars.getLast? with
    | none => .pure .stop
    | some x => .tryWrite x.value (.close c.ok) .stop

/-- `StreamForHooks` and `StreamWhileHooks` (stream_for.cc:52-157, stream_while.cc:55-120). The reader of
the input is reader 0. -/
def Loop.program [DecidableEq T] [DecidableEq S] (c : Loop V T S) : Place V S → Action V S (Place V S)
  | .condition vars => .check (.callCondition vars) (.success vars)
  | .callCondition vars => .pure (c.callCondition vars)
  | .openCondition vars items ending => .makeReader items ending (.parse vars)
  | .parse vars r =>
    .tryRead r (fun v => c.decide vars (parseValue (c.slice v))) c.conditionClosed r (.parse vars r)
  | .read vars =>
    .tryRead 0 (fun v => .body vars (some v)) (fun s => if s ≠ c.ok then .close s else .finalize vars)
      0 (.read vars)
  | .body vars item => .check (.callBody vars item) (.condition vars)
  | .callBody vars item => .pure (c.called vars .condition .yieldBody (c.body item (c.visible vars)))
  | .yieldBody vars => c.maybeYield vars .condition
  | .finalize vars => .check (.callFinalize vars) (.success vars)
  | .callFinalize vars =>
    .pure (match c.finalize with
      | none => .success vars
      | some f => c.called vars .success .yieldFinalize (f (c.visible vars)))
  | .yieldFinalize vars => c.maybeYield vars .success
  | .success vars => c.onSuccess vars
  | .close s => .tryClose s .stop
  | .stop => .stop

/-- The start of a loop: the variables must have different names, and a loop with `yields` writes the
initial value (stream_for.cc:242-267, 288, 377-402, stream_while.cc:183-206, 225, 291-313). The error is the
name of the variable. -/
def Loop.start (c : Loop V T S) : Except String (World V S (Place V S)) :=
  if c.lastName ∈ c.state.fields.map Prod.fst then .error c.lastName
  else .ok
    { readers := match c.input with
        | none => []
        | some (items, ending) => [{ items, ending }]
      loc := .condition c.vars
      items := if c.yields then [c.lastValue] else [] }

/-- The arguments of `StreamReduce` (stream_reduce.cc:99-110). -/
structure Reduce (V T S : Type) where
  typeOf : V → T
  ok : S
  orphaned : S
  wrongType : S
  initial : V
  input : List V
  ending : S
  functor : V → V → Except S V

/-- Where the hooks are (stream_reduce.cc:56-83). -/
inductive ReducePlace (V S : Type) where
  | start
  /-- before `TryRead` -/
  | read (value : V)
  /-- in the loop before `Interrupted` -/
  | item (value item : V)
  /-- before the functor -/
  | call (value item : V)
  /-- before `TryWrite` -/
  | write (value : V) (s : S)
  /-- before `TryClose` -/
  | close (s : S)
  /-- before `return nullptr` -/
  | stop

/-- `StreamReduceHooks` (stream_reduce.cc:40-95). -/
def Reduce.program [DecidableEq T] [DecidableEq S] (c : Reduce V T S) :
    ReducePlace V S → Action V S (ReducePlace V S)
  | .start => .makeReader c.input c.ending fun _ => .read c.initial
  | .read value =>
    .tryRead 0 (.item value) (fun s => if s ≠ c.ok then .close s else .write value s) 0 (.read value)
  | .item value v => .check (.call value v) .stop
  | .call value v =>
    .pure (match c.functor value v with
      | .error s => .close s
      | .ok value => if c.typeOf value ≠ c.typeOf c.initial then .close c.wrongType else .read value)
  | .write value s => .tryWrite value (.close s) .stop
  | .close s => .tryClose s .stop
  | .stop => .stop

/-- The start of a reduction. -/
def Reduce.start (_ : Reduce V T S) : World V S (ReducePlace V S) := { loc := .start }

end Verif.StreamLoop
