/-!
Model of `koladata/functor/parallel/async_eval.cc`, with the parts of `future.cc` it uses: evaluation of
operators whose inputs are futures.

A program makes futures one after the other: those that are set from outside, and those of calls of
`async_eval`. A step is a critical section of a mutex, or the running of a task by the executor; steps of all threads
may happen in any order. The values of futures are not futures, and have the type of the future.
-/

namespace Verif.AsyncEval

/-- `absl::StatusOr<arolla::TypedValue>` (future.cc:51). -/
inductive Value (V E : Type) where
  | ok (v : V)
  | error (e : E)
deriving DecidableEq, Repr

/-- An input of `async_eval`: a value, or a future (async_eval.cc:171-178). -/
inductive Arg (V : Type) where
  | const (v : V)
  | future (j : Nat)

/-- A future (future.cc:104-109): it is set from outside, or the result of `async_eval` of an operator. -/
inductive Node (V O : Type) where
  | source
  | eval (op : O) (args : List (Arg V))

/-- What the thread that calls `async_eval` does next (async_eval.cc:194-206): `Schedule`, or
`AddConsumer` for input `i` of `k` at the future `j`. -/
inductive Todo where
  | schedule (k : Nat)
  | register (k i j : Nat)

/-- `AsyncCountdown` (async_eval.cc:46-151). -/
structure Countdown (V : Type) where
  remaining : Nat
  errorReported : Bool
  inputs : List (Option V)

/-- The state: the members of all futures (future.h) and countdowns (async_eval.cc:137-147), and where the threads
are. -/
structure World (V E : Type) where
  /-- the steps that the calls of `async_eval` have still to do -/
  todo : List Todo
  /-- `value_` of each future -/
  value : Nat → Option (Value V E)
  /-- `consumers_` of all futures: (future, result, index of the input) -/
  consumers : List (Nat × Nat × Nat)
  /-- consumers that are to be called -/
  pool : List (Nat × Nat × Value V E)
  countdown : Nat → Countdown V
  /-- errors that are to be set as the value of a result (async_eval.cc:67) -/
  errors : List (Nat × E)
  /-- calls of `Schedule` that are to be made (async_eval.cc:95-97) -/
  ready : List Nat
  /-- tasks of the executor -/
  tasks : List (Nat × List (Option V))
  /-- a `LOG(FATAL)` was reached -/
  fatal : Bool

section
variable {V E O : Type}

/-- The number of futures among the inputs (async_eval.cc:165, 171-178). -/
def countFutures : List (Arg V) → Nat
  | [] => 0
  | .const _ :: rest => countFutures rest
  | .future _ :: rest => countFutures rest + 1

/-- `ready_input_values` (async_eval.cc:169-178). -/
def readyInputs : List (Arg V) → List (Option V)
  | [] => []
  | .const v :: rest => some v :: readyInputs rest
  | .future _ :: rest => none :: readyInputs rest

/-- The loop that adds the consumers, from input `i` on (async_eval.cc:197-205). -/
def registrations (k : Nat) : Nat → List (Arg V) → List Todo
  | _, [] => []
  | i, .const _ :: rest => registrations k (i + 1) rest
  | i, .future j :: rest => .register k i j :: registrations k (i + 1) rest

/-- The steps of the calls for the futures from `k` on (async_eval.cc:159-208). -/
def calls : Nat → List (Node V O) → List Todo
  | _, [] => []
  | k, .source :: rest => calls (k + 1) rest
  | k, .eval _ args :: rest =>
    (if countFutures args = 0 then [.schedule k] else registrations k 0 args) ++ calls (k + 1) rest

/-- The inputs of the call that made future `k` (`input_values`, async_eval.cc:161). -/
def argsOf (prog : List (Node V O)) (k : Nat) : List (Arg V) :=
  match prog[k]? with
  | some (.eval _ args) => args
  | _ => []

/-- The state before the calls (async_eval.cc:190-192). The countdowns are there from the start, which no one can
see. -/
def start (prog : List (Node V O)) : World V E where
  todo := calls 0 prog
  value := fun _ => none
  consumers := []
  pool := []
  countdown := fun k => ⟨countFutures (argsOf prog k), false, readyInputs (argsOf prog k)⟩
  errors := []
  ready := []
  tasks := []
  fatal := false

/-- A function changed at one place: the assignment to a member of one object (e.g. future.cc:62). -/
def set {β : Type} (f : Nat → β) (k : Nat) (b : β) : Nat → β := fun i => if i = k then b else f i

/-- `Future::SetValue` (future.cc:51-69). The consumers are called later, one by one. -/
def setValue (k : Nat) (v : Value V E) (w : World V E) : World V E :=
  match w.value k with
  | some _ => { w with fatal := true }
  | none =>
    { w with
      value := set w.value k (some v)
      pool := w.pool ++ (w.consumers.filter (·.1 = k)).map fun c => (c.2.1, c.2.2, v)
      consumers := w.consumers.filter (·.1 ≠ k) }

/-- `Future::AddConsumer` (future.cc:37-49). -/
def addConsumer (k i j : Nat) (w : World V E) : World V E :=
  match w.value j with
  | none => { w with consumers := w.consumers ++ [(j, k, i)] }
  | some v => { w with pool := w.pool ++ [(k, i, v)] }

/-- `AsyncCountdown::Schedule` (async_eval.cc:100-110). -/
def schedule (k : Nat) (w : World V E) : World V E :=
  let c := w.countdown k
  { w with countdown := set w.countdown k { c with inputs := [] }, tasks := w.tasks ++ [(k, c.inputs)] }

/-- The critical sections of `AsyncCountdown::SetInput` (async_eval.cc:58-98). -/
def setInput (k i : Nat) (v : Value V E) (w : World V E) : World V E :=
  let c := w.countdown k
  match v with
  | .error e =>
    if c.errorReported then w
    else { w with countdown := set w.countdown k { c with errorReported := true }, errors := w.errors ++ [(k, e)] }
  | .ok v =>
    match c.inputs[i]? with
    | some none =>
      { w with
        countdown := set w.countdown k { c with inputs := c.inputs.set i (some v), remaining := c.remaining - 1 }
        ready := if c.remaining - 1 = 0 ∧ c.errorReported = false then w.ready ++ [k] else w.ready }
    | _ => { w with fatal := true }

/-- All inputs, if they are set (async_eval.cc:113-123). -/
def allSet : List (Option V) → Option (List V)
  | [] => some []
  | none :: _ => none
  | some v :: rest => match allSet rest with
    | none => none
    | some vs => some (v :: vs)

/-- The value that a task sets (async_eval.cc:111-126). `internal` is "all inputs are done but one is
still not set". -/
def taskValue (evalOp : O → List V → Value V E) (internal : E) (prog : List (Node V O)) (k : Nat)
    (inputs : List (Option V)) : Value V E :=
  match allSet inputs with
  | none => .error internal
  | some vs => match prog[k]? with
    | some (.eval op _) => evalOp op vs
    | _ => .error internal

/-- The steps: critical sections and tasks of async_eval.cc:58-208 and future.cc:37-102. -/
inductive Op (V E : Type) where
  /-- the next step of the calls of `async_eval` -/
  | call
  /-- a future is set from outside -/
  | source (k : Nat) (v : Value V E)
  /-- a consumer is called -/
  | consume (p : Nat)
  /-- an error is set -/
  | report (p : Nat)
  /-- a countdown is scheduled -/
  | schedule (p : Nat)
  /-- the executor runs a task -/
  | run (p : Nat)
  /-- the executor drops a task; the destructor of the writer sets "orphaned" (future.cc:98-102) -/
  | drop (p : Nat)

/-- One step of the program, if it is possible (async_eval.cc:58-208, future.cc:37-102). -/
def step (evalOp : O → List V → Value V E) (internal orphaned : E) (prog : List (Node V O))
    (w : World V E) : Op V E → Option (World V E)
  | .call => match w.todo with
    | [] => none
    | .schedule k :: rest => some (schedule k { w with todo := rest })
    | .register k i j :: rest => some (addConsumer k i j { w with todo := rest })
  | .source k v => match prog[k]?, w.value k with
    | some .source, none => some (setValue k v w)
    | _, _ => none
  | .consume p => match w.pool[p]? with
    | some (k, i, v) => some (setInput k i v { w with pool := w.pool.eraseIdx p })
    | none => none
  | .report p => match w.errors[p]? with
    | some (k, e) => some (setValue k (.error e) { w with errors := w.errors.eraseIdx p })
    | none => none
  | .schedule p => match w.ready[p]? with
    | some k => some (schedule k { w with ready := w.ready.eraseIdx p })
    | none => none
  | .run p => match w.tasks[p]? with
    | some (k, inputs) =>
      some (setValue k (taskValue evalOp internal prog k inputs) { w with tasks := w.tasks.eraseIdx p })
    | none => none
  | .drop p => match w.tasks[p]? with
    | some (k, _) => some (setValue k (.error orphaned) { w with tasks := w.tasks.eraseIdx p })
    | none => none

/-- A sequence of steps (of all threads, in the order of the critical sections). -/
def run (evalOp : O → List V → Value V E) (internal orphaned : E) (prog : List (Node V O)) :
    World V E → List (Op V E) → Option (World V E)
  | w, [] => some w
  | w, op :: ops => match step evalOp internal orphaned prog w op with
    | none => none
    | some w => run evalOp internal orphaned prog w ops

end

end Verif.AsyncEval
