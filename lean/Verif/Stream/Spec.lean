import Verif.Stream.Model

/-!
What a history of a stream (a list of steps with what was observed of them) says.
-/

namespace Verif.Stream

variable {V S : Type}

/-- A history. -/
abbrev Trace (V S : Type) := List (Op V S × Out V S)

/-- The item a step writes. -/
def writtenBy : Op V S × Out V S → Option V
  | (.write v, .done) => some v
  | (.tryWrite v, .result true) => some v
  | _ => none

/-- The items written, in order. -/
def written (tr : Trace V S) : List V := tr.filterMap writtenBy

/-- The item a step gives to reader `r`. -/
def gotBy (r : Nat) : Op V S × Out V S → Option V
  | (.tryRead r', .read (.item v)) => if r' = r then some v else none
  | _ => none

/-- The items reader `r` got, in order. -/
def got (r : Nat) (tr : Trace V S) : List V := tr.filterMap (gotBy r)

/-- The status with which a step closes the stream. -/
def closedBy : Op V S × Out V S → Option S
  | (_, .finished status) => some status
  | _ => none

/-- The status with which the stream was closed. -/
def closedWith (tr : Trace V S) : Option S := tr.findSome? closedBy

/-- The status a step asks to close with. -/
def closeRequest (orphan : S) : Op V S → Option S
  | .close status => some status
  | .tryClose status => some status
  | .destroyWriter => some orphan
  | _ => none

/-- The first request to close. -/
def firstRequest (orphan : S) (tr : Trace V S) : Option S :=
  tr.findSome? fun e => closeRequest orphan e.1

/-- The callback a step calls. -/
def calledBy : Op V S × Out V S → Option Nat
  | (_, .called callback) => some callback
  | _ => none

/-- The callbacks that were called, in order. -/
def called (tr : Trace V S) : List Nat := tr.filterMap calledBy

/-- The callback a step subscribes. -/
def subscribedBy : Op V S × Out V S → Option Nat
  | (.subscribe _ callback, .done) => some callback
  | _ => none

/-- The subscribed callbacks. -/
def subscribed (tr : Trace V S) : List Nat := tr.filterMap subscribedBy

/-- The reader a step makes. -/
def madeBy : Op V S × Out V S → Option Nat
  | (_, .reader r) => some r
  | _ => none

/-- The readers made so far. -/
def made (tr : Trace V S) : List Nat := tr.filterMap madeBy

/-- A reader that exists. -/
def Live (r : Nat) (tr : Trace V S) : Prop :=
  ∃ before out after, tr = before ++ (Op.makeReader, out) :: after ∧ out = .reader r ∧
    ∀ e ∈ after, e.1 ≠ .dropReader r

/-- No one can read the stream any more: it is not held and has no reader. -/
def Gone (tr : Trace V S) : Prop :=
  (∃ e ∈ tr, e.1 = .dropStream) ∧ ∀ r, ¬ Live r tr

/-- The histories of a stream of values of any size, with any capacity of the first chunk, under
any schedule. -/
def Reached (orphan : S) (w : World V S) (tr : Trace V S) : Prop :=
  ∃ bytesize initialCapacity ops, run orphan (World.new bytesize initialCapacity) ops = (w, tr)

/-- What the next read of a reader must return that got `n` items. -/
def nextRead (tr : Trace V S) (n : Nat) : ReadResult V S :=
  match (written tr)[n]? with
  | some v => .item v
  | none =>
    match closedWith tr with
    | some status => .closed status
    | none => .empty

end Verif.Stream
