/-!
Model of `stream.map`: `koladata/functor/parallel/stream_map.cc` with `OrderedSink`.

The input stream and the output stream are what C37 and C38 say of them: a sequence of items, then a
status. A step is an atomic action of one thread: a read of the input, an operation on an atomic, a
write to the output, a critical section of the sink's mutex. The loop of `PushItem` writes one item
per step while it holds the mutex, so that the output can be closed or dropped in between.
-/

namespace Verif.StreamMap

variable {A B S : Type}

/-- A call of `stream.map`. The functor gives a value or an error; it is called at most once per
item, so it may as well be a function. -/
structure Config (A B S : Type) where
  /-- all items of the input stream -/
  input : List A
  /-- the status with which the input stream is closed -/
  ending : S
  functor : A → Except S B
  /-- whether the type of a value is `value_qtype` -/
  hasType : B → Bool
  /-- the error for a value of another type (stream_map.cc:144-147) -/
  wrongType : B → S
  /-- `absl::OkStatus()` -/
  ok : S

/-- The output stream. -/
structure Output (B S : Type) where
  items : List B := []
  /-- the flag `closed_` of its writer -/
  requested : Bool := false
  closed : Option S := none
  /-- no one can read it any more -/
  gone : Bool := false

/-- `Writer::TryWrite` (C37_tryWrite). -/
def Output.tryWrite (o : Output B S) (b : B) : Output B S × Bool :=
  if o.closed.isSome || o.gone then (o, false) else ({ o with items := o.items ++ [b] }, true)

/-- `Writer::TryClose` (C37_close) in a thread that holds the mutex of the sink. -/
def Output.tryClose (o : Output B S) (status : S) : Output B S :=
  if o.requested then o else { o with requested := true, closed := some status }

/-- The members of `OrderedSink` (stream_map.cc:271-281). A `final_offset_` of
`numeric_limits<size_t>::max()` is `none`. -/
structure Sink (B S : Type) where
  finalOffset : Option Nat := none
  finalStatus : S
  writeCount : Nat := 0
  buffer : List (Option B) := []
  /-- whether a thread is in the loop of `PushItem` -/
  locked : Bool := false

/-- `OrderedSink::Accepts` (stream_map.cc:222-224). -/
def Sink.accepts (s : Sink B S) (offset : Nat) : Bool :=
  match s.finalOffset with
  | none => true
  | some final => offset < final

/-- `buffer_.resize(i + 1)` and `buffer_[i] = item` (stream_map.cc:233-236). -/
def bufferSet (buffer : List (Option B)) (i : Nat) (b : B) : List (Option B) :=
  (if buffer.length ≤ i then buffer ++ List.replicate (i + 1 - buffer.length) none else buffer).set i
    (some b)

/-- `OrderedSink::PushStatus` (stream_map.cc:253-266). -/
def Sink.pushStatus (s : Sink B S) (o : Output B S) (offset : Nat) (status : S) :
    Sink B S × Output B S :=
  if s.accepts offset then
    let s := { s with finalOffset := some offset }
    if offset = s.writeCount then (s, o.tryClose status)
    else ({ s with finalStatus := status }, o)
  else (s, o)

/-- Where a `ProcessItem` (stream_map.cc:128-151) is. -/
inductive Phase where
  /-- before `Accepts` -/
  | scheduled
  /-- before the critical section of `PushItem` or `PushStatus` -/
  | pushing
  /-- in the loop of `PushItem` -/
  | draining
  /-- before `stop_reader.test_and_set` -/
  | stopping
  deriving DecidableEq

/-- A task of the executor. -/
structure Task where
  offset : Nat
  phase : Phase
  deriving DecidableEq

/-- Where `ReadItems` (stream_map.cc:154-189) is. -/
inductive Pc where
  /-- before the first test of `stop_reader` -/
  | start
  /-- before `TryRead` -/
  | loop
  /-- before the test of `stop_reader` in the loop -/
  | check
  /-- subscribed to the input -/
  | waiting
  | done
  deriving DecidableEq

/-- The `State` (stream_map.cc:96-123) and all it works on. -/
structure World (B S : Type) where
  /-- how many items of the input are written -/
  ready : Nat := 0
  /-- whether the input is closed -/
  ended : Bool := false
  pc : Pc := .start
  readCount : Nat := 0
  stop : Bool := false
  tasks : List Task := []
  sink : Sink B S
  out : Output B S := {}
  /-- the status of the cancellation context -/
  cancelled : Option S := none
  /-- whether `Cancel` has set the flag of the writer and has not closed the stream yet -/
  cancelling : Bool := false

/-- `StartStreamMap` (stream_map.cc:191-215). -/
def World.new (c : Config A B S) : World B S := { sink := { finalStatus := c.ok } }

/-- The steps. -/
inductive Op (S : Type) where
  /-- another item is written to the input -/
  | produce
  /-- the input is closed -/
  | finish
  /-- the output is dropped -/
  | drop
  /-- cancellation: `stop_reader` is set -/
  | cancel (status : S)
  /-- then the flag of the writer -/
  | cancelRequest
  /-- then the stream is closed -/
  | cancelClose
  | reader
  | task (i : Nat)

/-- The functor on an item with the test of the type (stream_map.cc:137-147). -/
def Config.result (c : Config A B S) (a : A) : Except S B :=
  match c.functor a with
  | .error status => .error status
  | .ok b => if c.hasType b then .ok b else .error (c.wrongType b)

/-- A step of `ReadItems` (stream_map.cc:154-189). Reading the status and pushing it is one step, as
nothing else changes what is read. -/
def World.reader (c : Config A B S) (w : World B S) : World B S :=
  match w.pc with
  | .start => { w with pc := if w.stop then .done else .loop }
  | .loop =>
    if w.readCount < w.ready then
      { w with
        tasks := w.tasks ++ [⟨w.readCount, .scheduled⟩]
        readCount := w.readCount + 1
        pc := .check }
    else if w.ended then
      if w.sink.locked then w
      else
        let (sink, out) := w.sink.pushStatus w.out w.readCount c.ending
        { w with sink, out, pc := .done }
    else { w with pc := .waiting }
  | .check => { w with pc := if w.stop then .done else .loop }
  -- the callback of `SubscribeOnce` (stream_map.cc:182-188)
  | .waiting =>
    if w.readCount < w.ready || w.ended then { w with pc := if w.stop then .done else .start }
    else w
  | .done => w

/-- The next phase of a task. -/
def World.goto (w : World B S) (i : Nat) (k : Nat) (phase : Phase) : World B S :=
  { w with tasks := w.tasks.set i ⟨k, phase⟩ }

/-- The end of a task. -/
def World.finishTask (w : World B S) (i : Nat) : World B S := { w with tasks := w.tasks.eraseIdx i }

/-- The critical section of `PushStatus` or the start of that of `PushItem` (stream_map.cc:139-148,
226-236). -/
def World.push (c : Config A B S) (w : World B S) (i k : Nat) : World B S :=
  match (c.input[k]?).map c.result with
  | none => w
  | some (.error status) =>
    let (sink, out) := w.sink.pushStatus w.out k status
    { w with sink, out }.goto i k .stopping
  | some (.ok b) =>
    if w.sink.accepts k then
      let buffer := bufferSet w.sink.buffer (k - w.sink.writeCount) b
      { w with sink := { w.sink with buffer, locked := true } }.goto i k .draining
    else w.goto i k .stopping

/-- An iteration of the loop of `PushItem`, or what follows the loop (stream_map.cc:237-250). -/
def World.drain (w : World B S) (i k : Nat) : World B S :=
  match w.sink.buffer with
  | some b :: rest =>
    match w.out.tryWrite b with
    | (out, true) =>
      { w with out, sink := { w.sink with writeCount := w.sink.writeCount + 1, buffer := rest } }
    | (_, false) =>
      { w with sink := { w.sink with finalOffset := some 0, locked := false } }.goto i k .stopping
  | _ =>
    if w.sink.finalOffset = some w.sink.writeCount then
      { w with
        out := w.out.tryClose w.sink.finalStatus
        sink := { w.sink with finalOffset := some 0, locked := false } }.goto i k .stopping
    else { w with sink := { w.sink with locked := false } }.finishTask i

/-- A step of `ProcessItem` (stream_map.cc:128-151). -/
def World.task (c : Config A B S) (w : World B S) (i : Nat) : World B S :=
  match w.tasks[i]? with
  | none => w
  | some ⟨k, .scheduled⟩ => if w.sink.accepts k then w.goto i k .pushing else w.finishTask i
  | some ⟨k, .pushing⟩ => if w.sink.locked then w else w.push c i k
  | some ⟨k, .draining⟩ => w.drain i k
  | some ⟨_, .stopping⟩ => { w with stop := true }.finishTask i

/-- A step. The steps `cancel…` are the callback of stream_map.cc:203-210 with `Cancel`
(stream_map.cc:268-270). -/
def step (c : Config A B S) (w : World B S) : Op S → World B S
  | .produce => if w.ready < c.input.length ∧ w.ended = false then { w with ready := w.ready + 1 } else w
  | .finish => if w.ready = c.input.length then { w with ended := true } else w
  | .drop => { w with out := { w.out with gone := true } }
  | .cancel status =>
    { w with
      cancelled := match w.cancelled with | none => some status | some s => some s
      stop := true }
  | .cancelRequest =>
    if w.cancelled.isSome ∧ w.out.requested = false then
      { w with out := { w.out with requested := true }, cancelling := true }
    else w
  | .cancelClose =>
    if w.cancelling then { w with out := { w.out with closed := w.cancelled }, cancelling := false }
    else w
  | .reader => w.reader c
  | .task i => w.task c i

/-- The state after a list of steps. -/
def run (c : Config A B S) (w : World B S) : List (Op S) → World B S
  | [] => w
  | op :: ops => run c (step c w op) ops

end Verif.StreamMap
