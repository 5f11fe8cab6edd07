import Verif.StreamChain.Model

/-!
Model of routines that wait for streams: `koladata/functor/parallel/basic_routine.cc`.

The hooks of a routine are a program: a function from its local states to the next operation. Streams are
what C37 and C38 say of them. Each operation is a step; `TryClose` is two steps, because it sets a flag of the
writer before it closes the stream. The hooks return a reader right after they found nothing to read, which is
one step with `TryRead`.
-/

namespace Verif.StreamLoop

open Verif.StreamChain (Input)

variable {V S L : Type}

/-- The next operation of the hooks of a routine with the local states that follow it. -/
inductive Action (V S L : Type) where
  /-- `Interrupted()` -/
  | check (no yes : L)
  /-- no operation on a stream or on the writer -/
  | pure (next : L)
  /-- `MakeReader` of a new stream with these items and this status -/
  | makeReader (items : List V) (ending : S) (next : Nat → L)
  /-- `TryRead` of a reader; when there is nothing to read, the hooks return the reader `returned`, and are in
  the state `resumed` when they are resumed -/
  | tryRead (reader : Nat) (item : V → L) (closed : S → L) (returned : Nat) (resumed : L)
  | tryWrite (v : V) (written failed : L)
  | tryClose (s : S) (next : L)
  /-- the hooks return `nullptr` -/
  | stop

/-- Where the routine is (basic_routine.cc:56-77, 84-105). -/
inductive Pc (S : Type) where
  /-- before the `Interrupted` of `StartBasicRoutine` -/
  | starting
  /-- `Run` is scheduled on the executor -/
  | scheduled
  /-- in the hooks -/
  | running
  /-- in the hooks, in `TryClose` before the stream is closed -/
  | closing (s : S)
  /-- before the `Interrupted` that follows the hooks -/
  | checking (reader : Nat)
  /-- before `SubscribeOnce` -/
  | subscribing (reader : Nat)
  | waiting (reader : Nat)
  /-- in the callback, before `Interrupted` -/
  | called
  /-- the routine ended -/
  | done

/-- The callback of the cancellation (basic_routine.cc:91-99). -/
inductive Cancel where
  | idle
  /-- in `TryClose` before the stream is closed -/
  | closing
  | done
  deriving DecidableEq

/-- `BasicRoutineState` (basic_routine.cc:38-46) with the streams and the writer. -/
structure World (V S L : Type) where
  /-- the streams for which there is a reader -/
  readers : List (Input V S) := []
  pc : Pc S := .starting
  /-- the state of the hooks -/
  loc : L
  /-- the items of the output -/
  items : List V := []
  /-- the flag of the writer -/
  requested : Bool := false
  /-- the status of the output -/
  closed : Option S := none
  /-- whether the output was dropped -/
  gone : Bool := false
  /-- the status of the cancellation context -/
  cancelled : Option S := none
  cancel : Cancel := .idle
  /-- whether the state was destroyed -/
  destroyed : Bool := false

/-- The steps. -/
inductive Op (S : Type) where
  /-- another item is written to a stream -/
  | produce (r : Nat)
  /-- a stream is closed -/
  | finish (r : Nat)
  /-- a step of the routine -/
  | routine
  /-- the output is dropped -/
  | drop
  /-- the cancellation context is cancelled -/
  | cancel (s : S)
  /-- the callback of the cancellation up to the flag -/
  | cancelRequest
  /-- the rest of the callback -/
  | cancelClose
  /-- the state is destroyed, and the writer with it -/
  | destroy

/-- `writer_->Orphaned()` (stream.cc:232-234). -/
def World.orphaned (w : World V S L) : Bool := w.requested || w.gone

/-- `Interrupted` (basic_routine.cc:50-54). -/
def World.interrupted (w : World V S L) : Bool := w.cancelled.isSome || w.orphaned

/-- The stream is closed, if there is one (stream.cc:286-288). -/
def World.close (w : World V S L) (s : S) : World V S L :=
  if w.gone then w else { w with closed := some s }

/-- The operation of the hooks. -/
def World.act (w : World V S L) : Action V S L → World V S L
  | .check no yes => { w with loc := if w.orphaned then yes else no }
  | .pure next => { w with loc := next }
  | .makeReader items ending next =>
    { w with readers := w.readers ++ [{ items, ending }], loc := next w.readers.length }
  | .tryRead r item closed returned resumed =>
    match w.readers[r]? with
    | none => w
    | some x =>
      if x.read < x.ready then
        match x.items[x.read]? with
        | none => w
        | some v => { w with readers := w.readers.set r { x with read := x.read + 1 }, loc := item v }
      else if x.ended then { w with loc := closed x.ending }
      else { w with pc := .checking returned, loc := resumed }
  | .tryWrite v written failed =>
    if w.closed.isSome || w.gone then { w with loc := failed }
    else { w with items := w.items ++ [v], loc := written }
  | .tryClose s next =>
    if w.requested then { w with loc := next }
    else { w with requested := true, pc := .closing s, loc := next }
  | .stop => { w with pc := .done }

/-- `SubscribeOnce` calls its callback at once, or when there is something to read (C38). -/
def World.subscribe (w : World V S L) (r : Nat) : World V S L :=
  match w.readers[r]? with
  | none => w
  | some x => if x.available then { w with pc := .called } else { w with pc := .waiting r }

/-- A step of the routine (basic_routine.cc:56-77, 100-104). -/
def World.routine (program : L → Action V S L) (w : World V S L) : World V S L :=
  match w.pc with
  | .starting => { w with pc := if w.interrupted then .done else .scheduled }
  | .scheduled => { w with pc := .running }
  | .running => w.act (program w.loc)
  | .closing s => { w.close s with pc := .running }
  | .checking r => { w with pc := if w.interrupted then .done else .subscribing r }
  | .subscribing r => w.subscribe r
  | .waiting r => w.subscribe r
  | .called => { w with pc := if w.interrupted then .done else .scheduled }
  | .done => w

/-- Whether the routine has no pointer to its state any more. -/
def Pc.isDone : Pc S → Bool
  | .done => true
  | _ => false

/-- The writer is destroyed with the state (stream.cc:291-298). -/
def World.destroy (orphanedStatus : S) (w : World V S L) : World V S L :=
  if w.pc.isDone && w.cancel ≠ .closing && !w.destroyed then
    if w.requested then { w with destroyed := true }
    else { w.close orphanedStatus with requested := true, destroyed := true }
  else w

/-- Something happens to a stream. -/
def World.change (w : World V S L) (r : Nat) (f : Input V S → Input V S) : World V S L :=
  match w.readers[r]? with
  | none => w
  | some x => { w with readers := w.readers.set r (f x) }

/-- A step. The callback of the cancellation has the hooks call `TryClose`. -/
def step (orphanedStatus : S) (program : L → Action V S L) (w : World V S L) : Op S → World V S L
  | .produce r => w.change r Input.produce
  | .finish r => w.change r Input.finish
  | .routine => w.routine program
  | .drop => { w with gone := true }
  | .cancel s => if w.cancelled.isSome then w else { w with cancelled := some s }
  | .cancelRequest =>
    if w.cancelled.isSome && w.cancel = .idle && !w.destroyed then
      if w.requested then { w with cancel := .done }
      else { w with requested := true, cancel := .closing }
    else w
  | .cancelClose =>
    if w.cancel = .closing then
      match w.cancelled with
      | none => w
      | some s => { w.close s with cancel := .done }
    else w
  | .destroy => w.destroy orphanedStatus

/-- The state after a list of steps. -/
def run (orphanedStatus : S) (program : L → Action V S L) (w : World V S L) : List (Op S) → World V S L
  | [] => w
  | op :: ops => run orphanedStatus program (step orphanedStatus program w op) ops

end Verif.StreamLoop
