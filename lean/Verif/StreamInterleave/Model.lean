import Verif.StreamChain.Model

/-!
Model of `StreamInterleave`: `koladata/functor/parallel/stream_composition.cc`.

The input streams and the output stream are what C37 and C38 say of them. Every operation on a stream is
a step. `TryClose` is two steps, because it sets a flag of the writer before it closes the stream.
-/

namespace Verif.StreamInterleave

open Verif.StreamChain (Input)

variable {B S : Type} [DecidableEq S]

/-- Where `ProcessInput` (stream_composition.cc:49-71) is. -/
inductive Pc (B S : Type) where
  /-- before `TryRead` -/
  | reading
  /-- before `TryWrite` -/
  | writing (b : B)
  /-- before the `test_and_set` of `TryClose` -/
  | requesting (s : S)
  /-- in `TryClose` before the stream is closed -/
  | closing (s : S)
  /-- before `SubscribeOnce` -/
  | subscribing
  /-- the callback is subscribed -/
  | waiting
  | finished

/-- An input with its `ProcessInput`. -/
structure Source (B S : Type) where
  input : Input B S
  pc : Pc B S := .reading

/-- Where a call of `AddError` (stream_composition.cc:42-47) is. -/
inductive Call (S : Type) where
  | requesting (s : S)
  | closing (s : S)
  | finished (s : S)

/-- `StreamInterleave::Scheduler` with its output. -/
structure World (B S : Type) where
  sources : List (Source B S) := []
  calls : List (Call S) := []
  /-- the flag of the writer -/
  requested : Bool := false
  /-- the items of the output -/
  items : List B := []
  /-- the status of the output -/
  closed : Option S := none
  /-- whether the output was dropped -/
  gone : Bool := false
  /-- whether the `StreamInterleave` was destroyed -/
  released : Bool := false
  /-- whether the scheduler was destroyed -/
  destroyed : Bool := false
  /-- whether the output was closed twice -/
  fatal : Bool := false

/-- The steps. -/
inductive Op (B S : Type) where
  /-- `Add` for a new stream with these items and this status -/
  | add (items : List B) (ending : S)
  | addItem (b : B)
  | addError (s : S)
  /-- another item is written to a stream -/
  | produce (i : Nat)
  /-- a stream is closed -/
  | finish (i : Nat)
  /-- a step of `ProcessInput` for this input -/
  | source (i : Nat)
  /-- a step of this call of `AddError` -/
  | call (k : Nat)
  /-- the output is dropped -/
  | drop
  /-- the `StreamInterleave` is destroyed -/
  | release
  /-- the scheduler is destroyed -/
  | destroy

/-- Whether `TryWrite` writes nothing (C37_write). -/
def World.stopped (w : World B S) : Bool := w.closed.isSome || w.gone

/-- The second step of `TryClose` (C37_close). -/
def World.close (w : World B S) (s : S) : World B S :=
  if w.gone then w
  else if w.closed.isSome then { w with fatal := true }
  else { w with closed := some s }

/-- The next position of `ProcessInput`. -/
def World.goto (w : World B S) (i : Nat) (x : Source B S) (pc : Pc B S) : World B S :=
  { w with sources := w.sources.set i { x with pc } }

/-- `TryRead` and what follows it (stream_composition.cc:51-62). -/
def World.read (ok : S) (w : World B S) (i : Nat) (x : Source B S) : World B S :=
  if x.input.read < x.input.ready then
    match x.input.items[x.input.read]? with
    | none => w
    | some b => w.goto i { x with input := { x.input with read := x.input.read + 1 } } (.writing b)
  else if x.input.ended then
    if x.input.ending = ok then w.goto i x .finished else w.goto i x (.requesting x.input.ending)
  else w.goto i x .subscribing

/-- A step of `ProcessInput` (stream_composition.cc:49-71). -/
def World.sourceStep (ok : S) (w : World B S) (i : Nat) (x : Source B S) : World B S :=
  match x.pc with
  | .reading => w.read ok i x
  | .writing b =>
    if w.stopped then w.goto i x .finished
    else { w with items := w.items ++ [b] }.goto i x .reading
  | .requesting s =>
    if w.requested then w.goto i x .finished
    else { w with requested := true }.goto i x (.closing s)
  | .closing s => (w.close s).goto i x .finished
  | .subscribing => if x.input.available then w.goto i x .reading else w.goto i x .waiting
  | .waiting => if x.input.available then w.goto i x .reading else w
  | .finished => w

/-- A step of a call of `AddError` (stream_composition.cc:42-47, stream.cc:282-289). -/
def World.callStep (w : World B S) (k : Nat) : Call S → World B S
  | .requesting s =>
    if w.requested then { w with calls := w.calls.set k (.finished s) }
    else { w with requested := true, calls := w.calls.set k (.closing s) }
  | .closing s => { w.close s with calls := w.calls.set k (.finished s) }
  | .finished _ => w

/-- Whether `ProcessInput` ended, so that it has no pointer to the scheduler. -/
def Source.isFinished (x : Source B S) : Bool :=
  match x.pc with
  | .finished => true
  | _ => false

/-- Whether the call returned. -/
def Call.isFinished : Call S → Bool
  | .finished _ => true
  | _ => false

/-- `~Scheduler` (stream_composition.cc:36), when nobody has it any more. -/
def World.destroy (ok : S) (w : World B S) : World B S :=
  if w.released && w.sources.all Source.isFinished && w.calls.all Call.isFinished && !w.destroyed then
    if w.requested then { w with destroyed := true }
    else { w.close ok with requested := true, destroyed := true }
  else w

/-- Something happens to a stream. -/
def World.change (w : World B S) (i : Nat) (f : Input B S → Input B S) : World B S :=
  match w.sources[i]? with
  | none => w
  | some x => { w with sources := w.sources.set i { x with input := f x.input } }

/-- `AddItem` (stream_composition.cc:40). -/
def World.addItem (w : World B S) (b : B) : World B S :=
  if w.released || w.stopped then w else { w with items := w.items ++ [b] }

/-- A step. `Add` and `AddError` are stream_composition.cc:82-96, 42-47. -/
def step (ok : S) (w : World B S) : Op B S → World B S
  | .add items ending =>
    if w.released then w else { w with sources := w.sources ++ [{ input := { items, ending } }] }
  | .addItem b => w.addItem b
  | .addError s =>
    if w.released || s = ok then w else { w with calls := w.calls ++ [.requesting s] }
  | .produce i => w.change i Input.produce
  | .finish i => w.change i Input.finish
  | .source i =>
    match w.sources[i]? with
    | none => w
    | some x => w.sourceStep ok i x
  | .call k =>
    match w.calls[k]? with
    | none => w
    | some c => w.callStep k c
  | .drop => { w with gone := true }
  | .release => { w with released := true }
  | .destroy => w.destroy ok

/-- The state after a list of steps. -/
def run (ok : S) (w : World B S) : List (Op B S) → World B S
  | [] => w
  | op :: ops => run ok (step ok w op) ops

end Verif.StreamInterleave
