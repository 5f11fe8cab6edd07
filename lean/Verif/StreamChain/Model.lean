/-!
Model of `StreamChain`: `koladata/functor/parallel/stream_composition.cc`.

The input streams and the output stream are what C37 and C38 say of them. A step is a critical section
of the mutex of the scheduler, or an operation on a stream. No operation of the output depends on
whether someone reads it, so that the output is always read in the model.
-/

namespace Verif.StreamChain

variable {B S : Type} [DecidableEq S]

/-- An input stream with the reader of the chain. -/
structure Input (B S : Type) where
  /-- all items that will be written to it -/
  items : List B
  /-- the status with which it will be closed -/
  ending : S
  /-- the number of items written so far -/
  ready : Nat := 0
  ended : Bool := false
  /-- the number of items read so far -/
  read : Nat := 0

/-- Whether `SubscribeOnce` calls its callback at once (C38_subscribe). -/
def Input.available (x : Input B S) : Bool := x.read < x.ready || x.ended

/-- Where a call of `ProcessPendingInputs` (stream_composition.cc:174-223) is. -/
inductive Pc (B S : Type) where
  /-- before its first critical section -/
  | begin
  /-- before `TryRead` of this input -/
  | reading (a : Nat)
  /-- before `Write` -/
  | writing (a : Nat) (b : B)
  /-- before `Close` -/
  | closing (s : S)
  /-- before the critical section for `kError` -/
  | erroring
  /-- before the critical section for `kDone` -/
  | popping
  /-- before `SubscribeOnce` -/
  | subscribing (a : Nat)
  /-- the callback is subscribed -/
  | waiting (a : Nat)

/-- `StreamChain::Scheduler` (stream_composition.cc:225-250) with its threads and callbacks. -/
structure World (B S : Type) where
  /-- all streams that were added -/
  inputs : List (Input B S) := []
  /-- `pending_inputs_`, as positions in `inputs` -/
  queue : List Nat := []
  errorReported : Bool := false
  threads : List (Pc B S) := []
  /-- the items of the output -/
  items : List B := []
  /-- the status of the output -/
  closed : Option S := none
  /-- whether the `StreamChain` was destroyed -/
  released : Bool := false
  /-- whether the scheduler was destroyed -/
  destroyed : Bool := false
  /-- whether a `CHECK` failed, or the output was written or closed after its closing -/
  fatal : Bool := false

/-- The steps. -/
inductive Op (B S : Type) where
  /-- the critical section of `AddInput` for a new stream with these items and this status -/
  | add (items : List B) (ending : S)
  | addItem (b : B)
  | addError (s : S)
  /-- another item is written to a stream -/
  | produce (i : Nat)
  /-- a stream is closed -/
  | finish (i : Nat)
  /-- a step of a thread or a callback -/
  | thread (j : Nat)
  /-- the `StreamChain` is destroyed -/
  | release
  /-- the scheduler is destroyed -/
  | destroy

/-- `AddInput` (stream_composition.cc:105-127) up to the call of `ProcessPendingInputs`. -/
def World.addInput (w : World B S) (x : Input B S) : World B S :=
  if w.released then w
  else if w.errorReported then { w with inputs := w.inputs ++ [x] }
  else
    { w with
      inputs := w.inputs ++ [x]
      queue := w.queue ++ [w.inputs.length]
      threads := if w.queue = [] then w.threads ++ [.begin] else w.threads }

/-- `CHECK` and `LOG(FATAL)`. -/
def World.die (w : World B S) : World B S := { w with fatal := true }

/-- The next position of a thread. -/
def World.goto (w : World B S) (j : Nat) (pc : Pc B S) : World B S :=
  { w with threads := w.threads.set j pc }

/-- The end of a thread. -/
def World.endThread (w : World B S) (j : Nat) : World B S :=
  { w with threads := w.threads.eraseIdx j }

/-- `TryRead` and what follows it in `ProcessInput` (stream_composition.cc:211-222). -/
def World.read (ok : S) (w : World B S) (j a : Nat) : World B S :=
  match w.inputs[a]? with
  | none => w.die
  | some x =>
    if x.read < x.ready then
      match x.items[x.read]? with
      | none => w.die
      | some b => { w with inputs := w.inputs.set a { x with read := x.read + 1 } }.goto j (.writing a b)
    else if x.ended then
      if x.ending = ok then w.goto j .popping else w.goto j (.closing x.ending)
    else w.goto j (.subscribing a)

/-- `SubscribeOnce` (stream_composition.cc:229-231, C38_subscribe). -/
def World.subscribe (w : World B S) (j a : Nat) : World B S :=
  match w.inputs[a]? with
  | none => w.die
  | some x => if x.available then w.goto j .begin else w.goto j (.waiting a)

/-- The callback (C38_exactly_once). -/
def World.wake (w : World B S) (j a : Nat) : World B S :=
  match w.inputs[a]? with
  | none => w.die
  | some x => if x.available then w.goto j .begin else w

/-- A step of `ProcessPendingInputs` (stream_composition.cc:171-234). -/
def World.thread (ok : S) (w : World B S) (j : Nat) : World B S :=
  match w.threads[j]? with
  | none => w
  | some .begin =>
    match w.queue with
    | [] => w.die
    | a :: _ => if w.errorReported then w.die else w.goto j (.reading a)
  | some (.reading a) => w.read ok j a
  | some (.writing a b) =>
    if w.closed.isSome then w.die else { w with items := w.items ++ [b] }.goto j (.reading a)
  | some (.closing s) =>
    if w.closed.isSome then w.die else { w with closed := some s }.goto j .erroring
  | some .erroring => { w with queue := [], errorReported := true }.endThread j
  | some .popping =>
    match w.queue with
    | [] => w.die
    | [_] => { w with queue := [] }.endThread j
    | _ :: a :: rest => { w with queue := a :: rest }.goto j (.reading a)
  | some (.subscribing a) => w.subscribe j a
  | some (.waiting a) => w.wake j a

/-- `~Scheduler` (stream_composition.cc:150-157), when neither the chain nor a callback nor a thread has
it. -/
def World.destroy (ok : S) (w : World B S) : World B S :=
  if w.released = true ∧ w.threads.length = 0 ∧ w.destroyed = false then
    if w.queue ≠ [] then w.die
    else if w.errorReported then { w with destroyed := true }
    else if w.closed.isSome then w.die
    else { w with destroyed := true, closed := some ok }
  else w

/-- Another item of a stream. -/
def Input.produce (x : Input B S) : Input B S :=
  if x.ready < x.items.length ∧ x.ended = false then { x with ready := x.ready + 1 } else x

/-- The end of a stream. -/
def Input.finish (x : Input B S) : Input B S :=
  if x.ready = x.items.length then { x with ended := true } else x

/-- Something happens to a stream. -/
def World.change (w : World B S) (i : Nat) (f : Input B S → Input B S) : World B S :=
  match w.inputs[i]? with
  | none => w
  | some x => { w with inputs := w.inputs.set i (f x) }

/-- A step. `AddItem` and `AddError` are stream_composition.cc:129-145. -/
def step (ok : S) (w : World B S) : Op B S → World B S
  | .add items ending => w.addInput { items, ending }
  | .addItem b => w.addInput { items := [b], ending := ok, ready := 1, ended := true }
  | .addError s => if s = ok then w else w.addInput { items := [], ending := s, ended := true }
  | .produce i => w.change i Input.produce
  | .finish i => w.change i Input.finish
  | .thread j => w.thread ok j
  | .release => { w with released := true }
  | .destroy => w.destroy ok

/-- The state after a list of steps. -/
def run (ok : S) (w : World B S) : List (Op B S) → World B S
  | [] => w
  | op :: ops => run ok (step ok w op) ops

end Verif.StreamChain
