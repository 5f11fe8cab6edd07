/-!
Model of futures: `koladata/functor/parallel/future.cc`.

As in `Verif/Stream`, a step is a critical section of the mutex, and the consumers a thread has taken
out of the future are called in steps of their own.
-/

namespace Verif.Future

variable {V E : Type}

/-- A consumer: a function of the value, or a callback of a stream reader, which ignores the value
(future.cc:131-134). -/
structure Consumer where
  id : Nat
  ignores : Bool
  deriving DecidableEq

/-- `absl::StatusOr<arolla::TypedValue>`. -/
inductive Value (V E : Type) where
  | ok (v : V)
  | error (e : E)
  deriving DecidableEq

/-- `TryReadResult` (stream.h:165-187); `closed none` is `OkStatus`. -/
inductive ReadResult (V E : Type) where
  | empty
  | item (v : V)
  | closed (status : Option E)
  deriving DecidableEq

/-- The members of `FutureStreamReader` (future.cc:136-139). -/
structure Reader (E : Type) where
  read : Bool := false
  status : Option E := none
  deriving DecidableEq

/-- A future (future.h:93-101), the variables that hold a `FutureWriter`, and the stream readers.
A writer variable is `none` if it was destroyed, else whether its `future_` is this future. -/
structure World (V E : Type) where
  value : Option (Value V E) := none
  consumers : List Consumer := []
  writers : List (Option Bool) := [some true]
  readers : List (Reader E) := []
  /-- the consumers that were taken out and are not called yet, and the value for them -/
  pool : List (Consumer × Value V E) := []

/-- The steps. -/
inductive Op (V E : Type) where
  | addConsumer (id : Nat)
  | setValue (writer : Nat) (value : Value V E)
  | destroyWriter (writer : Nat)
  | moveWriter (writer : Nat)
  /-- the writer of another future is move-assigned to the variable -/
  | overwriteWriter (writer : Nat)
  | peek
  | getForTesting
  | makeReader
  | tryRead (reader : Nat)
  | subscribe (reader : Nat) (id : Nat)
  | call (i : Nat)
  deriving DecidableEq

/-- What is observed of a step. -/
inductive Out (V E : Type) where
  | done
  | fatal
  | writer (w : Nat)
  | peeked (value : Option (Value V E))
  /-- `InvalidArgumentError("future has no value")` -/
  | noValue
  | reader (r : Nat)
  | read (result : ReadResult V E)
  | called (id : Nat) (value : Option (Value V E))
  /-- not a step of the program: there is no such writer or reader, or nothing to call -/
  | invalid
  deriving DecidableEq

/-- The critical section of `Future::AddConsumer` (future.cc:37-49). -/
def World.addConsumer (w : World V E) (c : Consumer) : World V E :=
  match w.value with
  | none => { w with consumers := w.consumers ++ [c] }
  | some value => { w with pool := w.pool ++ [(c, value)] }

/-- Whether the type of a value is not the type of the future (future.cc:52). -/
def wrongType (hasType : V → Bool) : Value V E → Bool
  | .ok v => !hasType v
  | .error _ => false

/-- `Future::SetValue` (future.cc:51-69): `none` if it fails. `hasType` says whether the type of a
value is that of the future. -/
def World.set (hasType : V → Bool) (w : World V E) (value : Value V E) : Option (World V E) :=
  if wrongType hasType value then none
  else
    match w.value with
    | some _ => none
    | none =>
      some { w with
        value := some value
        consumers := []
        pool := w.pool ++ w.consumers.map fun c => (c, value) }

/-- `FutureWriter::SetValue` (future.cc:91-97). The writer lets go of the future after the consumers
are called, here before; it is `&&`, so no one may use it meanwhile. -/
def World.setValue (hasType : V → Bool) (w : World V E) (writer : Nat) (value : Value V E) :
    World V E × Out V E :=
  match (w.writers[writer]?).join with
  | none => (w, .invalid)
  | some false => (w, .fatal)
  | some true =>
    match w.set hasType value with
    | none => (w, .fatal)
    | some w' => ({ w' with writers := w'.writers.set writer (some false) }, .done)

/-- `~FutureWriter` (future.cc:99-103). -/
def World.destroyWriter (hasType : V → Bool) (orphaned : E) (w : World V E) (writer : Nat) :
    World V E × Out V E :=
  match (w.writers[writer]?).join with
  | none => (w, .invalid)
  | some false => ({ w with writers := w.writers.set writer none }, .done)
  | some true =>
    match w.set hasType (.error orphaned) with
    | none => (w, .fatal)
    | some w' => ({ w' with writers := w'.writers.set writer none }, .done)

/-- `FutureStreamReader::TryRead` (future.cc:113-129) on the value of `PeekValue`
(future.cc:71-80). -/
def Reader.tryRead (r : Reader E) (value : Option (Value V E)) : Reader E × ReadResult V E :=
  if r.read then (r, .closed r.status)
  else
    match value with
    | none => (r, .empty)
    | some (.error e) => ({ r with read := true, status := some e }, .closed (some e))
    | some (.ok v) => ({ r with read := true }, .item v)

/-- A step. `orphaned` is `absl::CancelledError("orphaned")`. -/
def step (hasType : V → Bool) (orphaned : E) (w : World V E) : Op V E → World V E × Out V E
  | .addConsumer id => (w.addConsumer ⟨id, false⟩, .done)
  | .setValue writer value => w.setValue hasType writer value
  | .destroyWriter writer => w.destroyWriter hasType orphaned writer
  -- `FutureWriter(FutureWriter&&) = default` (future.h:119)
  | .moveWriter writer =>
    match (w.writers[writer]?).join with
    | none => (w, .invalid)
    | some owns =>
      ({ w with writers := w.writers.set writer (some false) ++ [some owns] },
        .writer w.writers.length)
  -- `operator=(FutureWriter&&) = default` (future.h:120)
  | .overwriteWriter writer =>
    match (w.writers[writer]?).join with
    | none => (w, .invalid)
    | some _ => ({ w with writers := w.writers.set writer (some false) }, .done)
  -- `Future::PeekValue` (future.cc:71-80)
  | .peek => (w, .peeked w.value)
  -- `Future::GetValueForTesting` (future.cc:82-88)
  | .getForTesting =>
    match w.value with
    | none => (w, .noValue)
    | some value => (w, .peeked (some value))
  -- `FutureStream::MakeReader`, `StreamReaderFromFuture` (future.cc:147, 160-163)
  | .makeReader => ({ w with readers := w.readers ++ [{}] }, .reader w.readers.length)
  | .tryRead reader =>
    match w.readers[reader]? with
    | none => (w, .invalid)
    | some r =>
      let (r, result) := r.tryRead w.value
      ({ w with readers := w.readers.set reader r }, .read result)
  -- `FutureStreamReader::SubscribeOnce` (future.cc:131-134)
  | .subscribe reader id =>
    match w.readers[reader]? with
    | none => (w, .invalid)
    | some _ => (w.addConsumer ⟨id, true⟩, .done)
  -- the calls of future.cc:48, 65-68
  | .call i =>
    match w.pool[i]? with
    | none => (w, .invalid)
    | some (c, value) =>
      ({ w with pool := w.pool.eraseIdx i },
        .called c.id (if c.ignores then none else some value))

/-- The state after a list of steps, and what was observed. -/
def run (hasType : V → Bool) (orphaned : E) (w : World V E) :
    List (Op V E) → World V E × List (Op V E × Out V E)
  | [] => (w, [])
  | op :: ops =>
    let (w', out) := step hasType orphaned w op
    let (w'', rest) := run hasType orphaned w' ops
    (w'', (op, out) :: rest)

end Verif.Future
