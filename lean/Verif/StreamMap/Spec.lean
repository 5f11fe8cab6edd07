import Verif.StreamMap.Model

/-!
What `stream.map` should do.
-/

namespace Verif.StreamMap

variable {A B S : Type}

/-- The items of the output and its status: the functor is applied to the items one after the other
up to the first error. -/
def expected (functor : A → Except S B) (hasType : B → Bool) (wrongType : B → S) (ending : S) :
    List A → List B × S
  | [] => ([], ending)
  | a :: rest =>
    match functor a with
    | .error status => ([], status)
    | .ok b =>
      if hasType b then
        let (items, status) := expected functor hasType wrongType ending rest
        (b :: items, status)
      else ([], wrongType b)

/-- The expected output of a call. -/
def Config.expected (c : Config A B S) : List B × S :=
  StreamMap.expected c.functor c.hasType c.wrongType c.ending c.input

/-- Steps of the operator itself. -/
def Op.Internal : Op S → Prop
  | .reader => True
  | .task _ => True
  | _ => False

/-- Steps of the callback of a cancellation. -/
def Op.CancelWork : Op S → Prop
  | .cancelRequest => True
  | .cancelClose => True
  | _ => False

/-- Steps of the operator, each of which does something. -/
inductive Busy (c : Config A B S) : World B S → List (Op S) → Prop where
  | nil (w : World B S) : Busy c w []
  | cons {w : World B S} {op : Op S} {ops : List (Op S)} :
    op.Internal → step c w op ≠ w → Busy c (step c w op) ops → Busy c w (op :: ops)

end Verif.StreamMap
