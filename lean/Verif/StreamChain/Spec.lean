import Verif.StreamChain.Model

/-!
What a stream chain should do.
-/

namespace Verif.StreamChain

variable {B S : Type} [DecidableEq S]

/-- The stream that a step adds: its items and its status. -/
def Op.added (ok : S) : Op B S → Option (List B × S)
  | .add items ending => some (items, ending)
  | .addItem b => some ([b], ok)
  | .addError s => if s = ok then none else some ([], s)
  | _ => none

/-- The streams that are added, in this order, up to the destruction of the `StreamChain`. -/
def added (ok : S) : List (Op B S) → List (List B × S)
  | [] => []
  | .release :: _ => []
  | op :: ops =>
    match op.added ok with
    | some stream => stream :: added ok ops
    | none => added ok ops

/-- The concatenation of streams up to and including the first error. -/
def chain (ok : S) : List (List B × S) → List B × S
  | [] => ([], ok)
  | (items, status) :: rest =>
    if status = ok then (items ++ (chain ok rest).1, (chain ok rest).2) else (items, status)

/-- The same for streams of which only a part was written so far. -/
def flow (ok : S) : List (List B × Option S) → List B × Option S
  | [] => ([], none)
  | (items, none) :: _ => (items, none)
  | (items, some status) :: rest =>
    if status = ok then (items ++ (flow ok rest).1, (flow ok rest).2) else (items, some status)

/-- What was written to a stream so far. -/
def Input.written (x : Input B S) : List B × Option S :=
  (x.items.take x.ready, if x.ended then some x.ending else none)

/-- Steps of the chain itself. -/
def Op.Internal : Op B S → Prop
  | .thread _ => True
  | .destroy => True
  | _ => False

/-- Steps of the chain, each of which does something. -/
inductive Busy (ok : S) : World B S → List (Op B S) → Prop where
  | nil (w : World B S) : Busy ok w []
  | cons {w : World B S} {op : Op B S} {ops : List (Op B S)} :
    op.Internal → step ok w op ≠ w → Busy ok (step ok w op) ops → Busy ok w (op :: ops)

end Verif.StreamChain
