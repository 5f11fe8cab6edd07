import Verif.StreamMapUnordered.Model

/-!
What `stream.map_unordered` should do.
-/

namespace Verif.StreamMapUnordered

open Verif.StreamMap (Config)

variable {A B S : Type} [DecidableEq S]

/-- The values of the functor of the right type, in the order of the input. -/
def mapped (functor : A → Except S B) (hasType : B → Bool) (input : List A) : List B :=
  input.filterMap fun a =>
    match functor a with
    | .error _ => none
    | .ok b => if hasType b then some b else none

/-- The errors of a call: of the functor, of a value of the wrong type, of the input stream. -/
def IsError (c : Config A B S) (s : S) : Prop :=
  (∃ a ∈ c.input, c.functor a = .error s) ∨
  (∃ a ∈ c.input, ∃ b, c.functor a = .ok b ∧ c.hasType b = false ∧ s = c.wrongType b) ∨
  (s = c.ending ∧ s ≠ c.ok)

/-- Steps of the operator itself. -/
def Op.Internal : Op S → Prop
  | .reader => True
  | .task _ => True
  | .cancelStep => True
  | .destroy => True
  | _ => False

/-- Steps of the operator, each of which does something. -/
inductive Busy (c : Config A B S) (orphaned : S) : World B S → List (Op S) → Prop where
  | nil (w : World B S) : Busy c orphaned w []
  | cons {w : World B S} {op : Op S} {ops : List (Op S)} :
    op.Internal → step c orphaned w op ≠ w → Busy c orphaned (step c orphaned w op) ops →
    Busy c orphaned w (op :: ops)

end Verif.StreamMapUnordered
