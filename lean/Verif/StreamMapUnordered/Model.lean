import Verif.StreamMap.Model

/-!
Model of `stream.map_unordered`: `koladata/functor/parallel/stream_map.cc` with `UnorderedSink`.

The reader of items and the tasks are those of `stream.map`; the sink has no mutex, so that each
operation on one of its atomics and on the writer is a step. `Close` is one step: its flag is only read
by `Close` and by the destructor of the writer.
-/

namespace Verif.StreamMapUnordered

open Verif.StreamMap (Config Output)

variable {A B S : Type} [DecidableEq S]

/-- Where a `ProcessItem` (stream_map.cc:128-151) is. -/
inductive Phase where
  /-- before `Accepts` -/
  | scheduled
  /-- before the first step of `PushItem` or `PushStatus` -/
  | pushing
  /-- in `PushItem` before `TryWrite` -/
  | writing
  /-- before `write_count_ += 1` -/
  | counting
  /-- before the `test_and_set` of `PushItem` -/
  | failing
  /-- in `PushStatus` before `Close` -/
  | closing
  /-- before `stop_reader.test_and_set` -/
  | stopping
  deriving DecidableEq

/-- A task of the executor. -/
structure Task where
  offset : Nat
  phase : Phase
  deriving DecidableEq

/-- Where `ReadItems` (stream_map.cc:154-189) is. -/
inductive Pc where
  | start
  | loop
  | check
  | waiting
  /-- in `PushStatus` before `Close` -/
  | closing
  | done
  deriving DecidableEq

/-- Where the callback of the cancellation (stream_map.cc:203-210) is. -/
inductive Cancel where
  | idle
  /-- before `failed_.test_and_set` -/
  | flag
  /-- before `Close` -/
  | closing
  deriving DecidableEq

/-- The `State` (stream_map.cc:96-123) with its `UnorderedSink` (stream_map.cc:331-334). -/
structure World (B S : Type) where
  ready : Nat := 0
  ended : Bool := false
  pc : Pc := .start
  readCount : Nat := 0
  stop : Bool := false
  tasks : List Task := []
  failed : Bool := false
  writeCount : Nat := 0
  size : Option Nat := none
  out : Output B S := {}
  cancelled : Option S := none
  cancel : Cancel := .idle
  /-- whether the destructor of the state was called -/
  destroyed : Bool := false
  /-- whether the process was ended by a second `Close` -/
  fatal : Bool := false

/-- The steps. -/
inductive Op (S : Type) where
  /-- another item is written to the input -/
  | produce
  /-- the input is closed -/
  | finish
  /-- the output is dropped -/
  | drop
  /-- cancellation: `stop_reader` is set -/
  | cancel (status : S)
  /-- the next step of its callback -/
  | cancelStep
  | reader
  | task (i : Nat)
  /-- the state is destroyed -/
  | destroy

/-- `std::move(*writer_).Close(status)` (C37_close). -/
def World.close (w : World B S) (status : S) : World B S :=
  if w.out.requested then { w with fatal := true }
  else { w with out := { w.out with requested := true, closed := some status } }

/-- `UnorderedSink::PushStatus` up to `Close` (stream_map.cc:311-317) in `ReadItems`. -/
def World.readerStatus (c : Config A B S) (w : World B S) : World B S :=
  if c.ending = c.ok then { w with size := some w.readCount, pc := .done }
  else if w.failed then { w with pc := .done }
  else { w with failed := true, pc := .closing }

/-- A step of `ReadItems` (stream_map.cc:154-189). -/
def World.reader (c : Config A B S) (w : World B S) : World B S :=
  match w.pc with
  | .start => { w with pc := if w.stop then .done else .loop }
  | .loop =>
    if w.readCount < w.ready then
      { w with
        tasks := w.tasks ++ [⟨w.readCount, .scheduled⟩]
        readCount := w.readCount + 1
        pc := .check }
    else if w.ended then w.readerStatus c
    else { w with pc := .waiting }
  | .check => { w with pc := if w.stop then .done else .loop }
  -- the callback of `SubscribeOnce` (stream_map.cc:182-188)
  | .waiting =>
    if w.readCount < w.ready || w.ended then { w with pc := if w.stop then .done else .start }
    else w
  | .closing => { w.close c.ending with pc := .done }
  | .done => w

/-- The next phase of a task. -/
def World.goto (w : World B S) (i : Nat) (k : Nat) (phase : Phase) : World B S :=
  { w with tasks := w.tasks.set i ⟨k, phase⟩ }

/-- The end of a task. -/
def World.finishTask (w : World B S) (i : Nat) : World B S := { w with tasks := w.tasks.eraseIdx i }

/-- The functor and the first step of `PushStatus` or `PushItem` (stream_map.cc:136-149, 298-299,
311-316). -/
def World.push (c : Config A B S) (w : World B S) (i k : Nat) : World B S :=
  match (c.input[k]?).map c.result with
  | none => w
  | some (.error _) =>
    if w.failed then w.goto i k .stopping else { w with failed := true }.goto i k .closing
  | some (.ok _) => if w.failed then w.goto i k .stopping else w.goto i k .writing

/-- `TryWrite` of `PushItem` (stream_map.cc:300). -/
def World.write (c : Config A B S) (w : World B S) (i k : Nat) : World B S :=
  match (c.input[k]?).map c.result with
  | some (.ok b) =>
    match w.out.tryWrite b with
    | (out, true) => { w with out }.goto i k .counting
    | (_, false) => w.goto i k .failing
  | _ => w

/-- `Close` of `PushStatus` (stream_map.cc:317). -/
def World.closeTask (c : Config A B S) (w : World B S) (i k : Nat) : World B S :=
  match (c.input[k]?).map c.result with
  | some (.error status) => (w.close status).goto i k .stopping
  | _ => w

/-- A step of `ProcessItem` (stream_map.cc:128-151, 293-318). -/
def World.task (c : Config A B S) (w : World B S) (i : Nat) : World B S :=
  match w.tasks[i]? with
  | none => w
  | some ⟨k, .scheduled⟩ => if w.failed then w.finishTask i else w.goto i k .pushing
  | some ⟨k, .pushing⟩ => w.push c i k
  | some ⟨k, .writing⟩ => w.write c i k
  | some ⟨_, .counting⟩ => { w with writeCount := w.writeCount + 1 }.finishTask i
  | some ⟨k, .failing⟩ => { w with failed := true }.goto i k .stopping
  | some ⟨k, .closing⟩ => w.closeTask c i k
  | some ⟨_, .stopping⟩ => { w with stop := true }.finishTask i

/-- A step of the callback of the cancellation (stream_map.cc:203-210, 320-325). -/
def World.cancelStep (w : World B S) : World B S :=
  match w.cancel, w.cancelled with
  | .flag, _ => if w.failed then { w with cancel := .idle } else { w with failed := true, cancel := .closing }
  | .closing, some status => { w.close status with cancel := .idle }
  | _, _ => w

/-- `~UnorderedSink` (stream_map.cc:286-291) and then `~Writer` (C37_orphaned), when no thread and no
callback has the state. -/
def World.destroy (c : Config A B S) (orphaned : S) (w : World B S) : World B S :=
  if w.pc = .done ∧ w.tasks = [] ∧ w.cancel = .idle ∧ w.destroyed = false then
    let w := if w.failed = false ∧ some w.writeCount = w.size then w.close c.ok else w
    { w with failed := true, destroyed := true, out := w.out.tryClose orphaned }
  else w

/-- A step. -/
def step (c : Config A B S) (orphaned : S) (w : World B S) : Op S → World B S
  | .produce => if w.ready < c.input.length ∧ w.ended = false then { w with ready := w.ready + 1 } else w
  | .finish => if w.ready = c.input.length then { w with ended := true } else w
  | .drop => { w with out := { w.out with gone := true } }
  | .cancel status =>
    if w.cancelled = none ∧ w.destroyed = false then
      { w with cancelled := some status, stop := true, cancel := .flag }
    else w
  | .cancelStep => w.cancelStep
  | .reader => w.reader c
  | .task i => w.task c i
  | .destroy => w.destroy c orphaned

/-- The state after a list of steps. -/
def run (c : Config A B S) (orphaned : S) (w : World B S) : List (Op S) → World B S
  | [] => w
  | op :: ops => run c orphaned (step c orphaned w op) ops

end Verif.StreamMapUnordered
