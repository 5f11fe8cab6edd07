import Verif.StreamInterleave.Model

/-!
What an interleave should do.
-/

namespace Verif.StreamInterleave

variable {B S : Type} [DecidableEq S]

/-- The steps before the destruction of the `StreamInterleave`. -/
def before : List (Op B S) → List (Op B S)
  | [] => []
  | .release :: _ => []
  | op :: ops => op :: before ops

/-- The stream that a step adds. -/
def Op.stream : Op B S → Option (List B × S)
  | .add items ending => some (items, ending)
  | _ => none

/-- The single item that a step adds. -/
def Op.item : Op B S → Option B
  | .addItem b => some b
  | _ => none

/-- The error that a step adds. -/
def Op.error (ok : S) : Op B S → Option S
  | .addError s => if s = ok then none else some s
  | _ => none

/-- The streams that are added. -/
def streams (ops : List (Op B S)) : List (List B × S) := (before ops).filterMap Op.stream

/-- The single items that are added. -/
def singles (ops : List (Op B S)) : List B := (before ops).filterMap Op.item

/-- The errors that are added. -/
def errors (ok : S) (ops : List (Op B S)) : List S := (before ops).filterMap (Op.error ok)

/-- The items of a merge that come from one place: `some i` is the input with this number, `none` are the
single items. -/
def part (place : Option Nat) (tagged : List (Option Nat × B)) : List B :=
  tagged.filterMap fun t => if t.1 = place then some t.2 else none

/-- Steps of the interleave itself. -/
def Op.Internal : Op B S → Prop
  | .source _ => True
  | .call _ => True
  | .destroy => True
  | _ => False

/-- Steps of the interleave, each of which does something. -/
inductive Busy (ok : S) : World B S → List (Op B S) → Prop where
  | nil (w : World B S) : Busy ok w []
  | cons {w : World B S} {op : Op B S} {ops : List (Op B S)} :
    op.Internal → step ok w op ≠ w → Busy ok (step ok w op) ops → Busy ok w (op :: ops)

end Verif.StreamInterleave
