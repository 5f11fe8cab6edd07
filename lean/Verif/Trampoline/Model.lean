/-!
Model of `TrampolineExecutor` (`koladata/internal/op_utils/trampoline_executor.{h,cc}`), which runs
recursive code without recursion on the stack.
-/

namespace Verif.Trampoline

/-- Callbacks `C` that work on a state `S`: a call of one changes the state, enqueues callbacks (in
this order) and returns a status. -/
structure Program (C S E : Type) where
  run : C → S → S × List C × Option E

variable {C S E : Type}

/-- The members `stack_` (the back is the end of the list) and `buffer_`
(trampoline_executor.h:108-109), the state that the callbacks work on, and what has happened: the
callbacks that were called. -/
structure Exec (C S : Type) where
  stack : List C
  buffer : List C
  state : S
  called : List C

/-- `Enqueue` (trampoline_executor.cc:23-25). -/
def enqueue (x : Exec C S) (c : C) : Exec C S := { x with buffer := x.buffer ++ [c] }

/-- The calls of `Enqueue` that a callback makes, in order. -/
def enqueueAll (x : Exec C S) : List C → Exec C S
  | [] => x
  | c :: cs => enqueueAll (enqueue x c) cs

/-- The loop of `FlushBuffer` over the buffer from the back (trampoline_executor.cc:38-40). -/
def pushAll (stack : List C) : List C → List C
  | [] => stack
  | c :: cs => pushAll (stack ++ [c]) cs

/-- `FlushBuffer` (trampoline_executor.cc:37-42). -/
def flushBuffer (x : Exec C S) : Exec C S :=
  { x with stack := pushAll x.stack x.buffer.reverse, buffer := [] }

/-- A call of a callback. -/
def callBack (p : Program C S E) (x : Exec C S) (c : C) : Exec C S × Option E :=
  match p.run c x.state with
  | (s, cs, r) => (enqueueAll { x with state := s, called := x.called ++ [c] } cs, r)

/-- The loop of `Run` (trampoline_executor.cc:29-33), for at most a number of iterations; `none` is a
loop that has not ended by then. -/
def loop (p : Program C S E) : Nat → Exec C S → Option (Exec C S × Option E)
  | 0, _ => none
  | n + 1, x =>
    match x.stack.getLast? with
    | none => some (x, none)
    | some c =>
      match callBack p x c with
      | (x, some e) => some (x, some e)
      | (x, none) => loop p n (flushBuffer { x with stack := x.stack.dropLast })

/-- `TrampolineExecutor::Run` (trampoline_executor.h:82-87, trampoline_executor.cc:27-35), with the
root callback `root`: the state at the end, the callbacks that were called, and the status. -/
def run (p : Program C S E) (root : C) (s : S) (iterations : Nat) :
    Option (S × List C × Option E) :=
  match callBack p ⟨[], [], s, []⟩ root with
  | (x, some e) => some (x.state, x.called, some e)
  | (x, none) =>
    match loop p iterations (flushBuffer x) with
    | none => none
    | some (x, r) => some (x.state, x.called, r)

end Verif.Trampoline
