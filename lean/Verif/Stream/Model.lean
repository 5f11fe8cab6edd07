/-!
Model of streams: `koladata/functor/parallel/stream.cc`.

Threads interleave at the critical sections of the stream's mutex and at the operations on the
writer's flag `closed_`; everything else a thread does is local to it. A callback is called after
the mutex is released, so a thread that takes callbacks out of the stream puts them into a pool,
and the calls are steps of their own.
-/

namespace Verif.Stream

variable {V S : Type}

/-- `GetDefaultChunkCapacity` (stream.cc:51-56); `bytesize` is the size of a value. -/
def defaultChunkCapacity (bytesize : Nat) : Nat :=
  if bytesize ≠ 0 then (512 + bytesize - 1) / bytesize else 512

/-- `Chunk` (stream.cc:58-77). A slot that was not written is `none`. -/
structure Chunk (V : Type) where
  slots : List (Option V)

/-- `Chunk::capacity` (stream.cc:67). -/
def Chunk.capacity (c : Chunk V) : Nat := c.slots.length

/-- The constructor of `Chunk` (stream.cc:146-154). -/
def Chunk.new (capacity : Nat) : Chunk V := ⟨List.replicate capacity none⟩

/-- `Chunk::GetRef` (stream.cc:162-167): `none` for a slot that was not written. -/
def Chunk.getRef (c : Chunk V) (i : Nat) : Option V := (c.slots[i]?).join

/-- `Chunk::SetRef` (stream.cc:169-175). -/
def Chunk.setRef (c : Chunk V) (i : Nat) (v : V) : Chunk V := ⟨c.slots.set i (some v)⟩

/-- The members of `StreamImpl` (stream.cc:97-103). Callbacks are numbers. -/
structure StreamImpl (V S : Type) where
  defaultCapacity : Nat
  chunks : List (Chunk V) := []
  lastChunkSize : Nat := 0
  status : Option S := none
  callbacks : List Nat := []

/-- The constructor of `StreamImpl` (stream.cc:177-184). -/
def StreamImpl.new (bytesize initialCapacity : Nat) : StreamImpl V S :=
  { defaultCapacity := defaultChunkCapacity bytesize
    chunks := if initialCapacity > 0 then [Chunk.new initialCapacity] else [] }

/-- A change of the last element, `chunks_.back()`. -/
def updateBack {α : Type} (f : α → α) : List α → List α
  | [] => []
  | [x] => [f x]
  | x :: y :: rest => x :: updateBack f (y :: rest)

/-- The critical section of `InternalWrite` up to `SetRef` (stream.cc:199-203). -/
def StreamImpl.append (s : StreamImpl V S) (v : V) : StreamImpl V S :=
  let full : Bool :=
    match s.chunks.getLast? with
    | none => true
    | some back => back.capacity == s.lastChunkSize
  let chunks := if full then s.chunks ++ [Chunk.new s.defaultCapacity] else s.chunks
  let size := if full then 0 else s.lastChunkSize
  { s with chunks := updateBack (fun back => back.setRef size v) chunks, lastChunkSize := size + 1 }

/-- `InternalWrite` (stream.cc:190-210): the callbacks to call, `none` if the stream is closed. -/
def StreamImpl.write (s : StreamImpl V S) (v : V) : StreamImpl V S × Option (List Nat) :=
  if s.status.isSome then (s, none)
  else ({ s.append v with callbacks := [] }, some s.callbacks)

/-- `InternalClose` (stream.cc:212-226): the callbacks to call. -/
def StreamImpl.close (s : StreamImpl V S) (status : S) : StreamImpl V S × List Nat :=
  if s.status.isSome then (s, [])
  else ({ s with status := some status, callbacks := [] }, s.callbacks)

/-- The members of `Reader` (stream.cc:139-142). `chunk` is the index of the chunk `chunk_` points
to, `none` for the empty chunk of the constructor (stream.cc:300-304). A deque does not move its
elements on `emplace_back`. -/
structure Reader where
  nextChunkIndex : Nat := 0
  chunk : Option Nat := none
  offset : Nat := 0
  knownSize : Nat := 0
  deriving DecidableEq

/-- The chunk of a reader. -/
def Reader.current (s : StreamImpl V S) (r : Reader) : Chunk V :=
  match r.chunk with
  | none => Chunk.new 0
  | some i => (s.chunks[i]?).getD (Chunk.new 0)

/-- The first half of `Reader::Update` (stream.cc:323-327). -/
def Reader.advance (s : StreamImpl V S) (r : Reader) : Reader :=
  if r.offset = (r.current s).capacity ∧ r.nextChunkIndex < s.chunks.length then
    { r with chunk := some r.nextChunkIndex, nextChunkIndex := r.nextChunkIndex + 1, offset := 0 }
  else r

/-- The second half of `Reader::Update` (stream.cc:328-332). -/
def Reader.learn (s : StreamImpl V S) (r : Reader) : Reader :=
  if r.nextChunkIndex = s.chunks.length then { r with knownSize := s.lastChunkSize }
  else { r with knownSize := (r.current s).capacity }

/-- `Reader::Update` (stream.cc:322-333). -/
def Reader.update (s : StreamImpl V S) (r : Reader) : Reader := (r.advance s).learn s

/-- `TryReadResult` (stream.h:165-187). `garbage` is a read of a slot that was not written. -/
inductive ReadResult (V S : Type) where
  | empty
  | item (v : V)
  | closed (status : S)
  | garbage
  deriving DecidableEq

/-- `chunk_->GetRef(offset_++)` (stream.cc:308, 314). -/
def Reader.next (s : StreamImpl V S) (r : Reader) : Reader × ReadResult V S :=
  ({ r with offset := r.offset + 1 },
    match (r.current s).getRef r.offset with
    | some v => .item v
    | none => .garbage)

/-- `Reader::TryRead` (stream.cc:306-320). -/
def Reader.tryRead (s : StreamImpl V S) (r : Reader) : Reader × ReadResult V S :=
  if r.offset < r.knownSize then r.next s
  else
    let r := r.update s
    if r.offset < r.knownSize then
      let (r, result) := r.next s
      (r.update s, result)
    else
      match s.status with
      | some status => (r, .closed status)
      | none => (r, .empty)

/-- `Reader::SubscribeOnce` (stream.cc:335-348): the stream, the reader, and whether the callback is
to be called at once. -/
def Reader.subscribe (s : StreamImpl V S) (r : Reader) (callback : Nat) :
    StreamImpl V S × Reader × Bool :=
  if s.status.isSome then (s, r, true)
  else
    let r := r.update s
    if r.offset = r.knownSize then ({ s with callbacks := s.callbacks ++ [callback] }, r, false)
    else (s, r, true)

/-! ### A stream, its writer and its readers -/

/-- A stream with all that refers to it. -/
structure World (V S : Type) where
  /-- the object; it is gone if nothing holds it -/
  stream : StreamImpl V S
  /-- whether the `StreamPtr` of `MakeStream` is held -/
  held : Bool := true
  /-- the readers, `none` for a destroyed one; every reader holds the stream -/
  readers : List (Option Reader) := []
  /-- `closed_` of the writer (stream.cc:124) -/
  closedFlag : Bool := false
  /-- the threads that have set `closed_` and have not called `InternalClose` yet -/
  closing : List S := []
  /-- the callbacks that were taken out and are not called yet -/
  pool : List Nat := []

/-- `MakeStream` (stream.cc:352-360). -/
def World.new (bytesize initialCapacity : Nat) : World V S :=
  { stream := .new bytesize initialCapacity }

/-- `weak_stream_.expired()`. -/
def World.expired (w : World V S) : Bool := !w.held && w.readers.all Option.isNone

/-- The steps. -/
inductive Op (V S : Type) where
  | write (v : V)
  | tryWrite (v : V)
  | close (status : S)
  | tryClose (status : S)
  | destroyWriter
  | internalClose
  | orphaned
  | makeReader
  | dropStream
  | dropReader (r : Nat)
  | tryRead (r : Nat)
  | subscribe (r : Nat) (callback : Nat)
  | call (i : Nat)
  deriving DecidableEq

/-- What is observed of a step. -/
inductive Out (V S : Type) where
  | done
  /-- `LOG(FATAL)`: a run ends here; the model goes on with the same state, so it has more runs -/
  | fatal
  | result (ok : Bool)
  /-- a write to a stream that is gone; not visible to the program -/
  | lost
  | finished (status : S)
  | reader (r : Nat)
  | read (result : ReadResult V S)
  | called (callback : Nat)
  /-- not a step of the program: there is no such reader, no stream, or nothing to do -/
  | invalid
  deriving DecidableEq

/-- The value of the `idx`-th reader. -/
def World.reader (w : World V S) (r : Nat) : Option Reader := (w.readers[r]?).join

/-- `Writer::Write` (stream.cc:236-253) with `checked = false` and `Writer::TryWrite`
(stream.cc:255-271) with `checked = true`. The type of the value is right. -/
def World.write (w : World V S) (checked : Bool) (v : V) : World V S × Out V S :=
  if w.expired then (w, if checked then .result false else .lost)
  else
    match w.stream.write v with
    | (stream, some callbacks) =>
      ({ w with stream, pool := w.pool ++ callbacks }, if checked then .result true else .done)
    | (_, none) => (w, if checked then .result false else .fatal)

/-- The flag of `Writer::Close` (stream.cc:273-276), `Writer::TryClose` (stream.cc:282-285) and
`~Writer` (stream.cc:291-294). -/
def World.setClosed (w : World V S) (status : S) (failure : Out V S) : World V S × Out V S :=
  if w.closedFlag then (w, failure)
  else ({ w with closedFlag := true, closing := w.closing ++ [status] }, .done)

/-- The rest of these (stream.cc:277-279, 286-288, 295-297). -/
def World.internalClose (w : World V S) : World V S × Out V S :=
  match w.closing with
  | [] => (w, .invalid)
  | status :: rest =>
    if w.expired then ({ w with closing := rest }, .done)
    else
      let (stream, callbacks) := w.stream.close status
      ({ w with stream, closing := rest, pool := w.pool ++ callbacks },
        if w.stream.status.isSome then .done else .finished status)

/-- A step. `orphan` is `absl::CancelledError("orphaned")`. -/
def step (orphan : S) (w : World V S) : Op V S → World V S × Out V S
  | .write v => w.write false v
  | .tryWrite v => w.write true v
  | .close status => w.setClosed status .fatal
  | .tryClose status => w.setClosed status .done
  | .destroyWriter => w.setClosed orphan .done
  | .internalClose => w.internalClose
  -- `Writer::Orphaned` (stream.cc:232-234)
  | .orphaned => (w, .result (w.closedFlag || w.expired))
  -- `MakeReader` (stream.cc:186-188)
  | .makeReader =>
    if w.held then ({ w with readers := w.readers ++ [some {}] }, .reader w.readers.length)
    else (w, .invalid)
  | .dropStream => ({ w with held := false }, .done)
  | .dropReader r => ({ w with readers := w.readers.set r none }, .done)
  | .tryRead r =>
    match w.reader r with
    | none => (w, .invalid)
    | some reader =>
      let (reader, result) := reader.tryRead w.stream
      ({ w with readers := w.readers.set r (some reader) }, .read result)
  | .subscribe r callback =>
    match w.reader r with
    | none => (w, .invalid)
    | some reader =>
      match reader.subscribe w.stream callback with
      | (stream, reader, now) =>
        ({ w with
            stream
            readers := w.readers.set r (some reader)
            pool := if now then w.pool ++ [callback] else w.pool }, .done)
  | .call i =>
    match w.pool[i]? with
    | none => (w, .invalid)
    | some callback => ({ w with pool := w.pool.eraseIdx i }, .called callback)

/-- The state after a list of steps, and what was observed. -/
def run (orphan : S) (w : World V S) : List (Op V S) → World V S × List (Op V S × Out V S)
  | [] => (w, [])
  | op :: ops =>
    let (w', out) := step orphan w op
    let (w'', rest) := run orphan w' ops
    (w'', (op, out) :: rest)

end Verif.Stream
