import Verif.AsyncEval.Model

/-!
What `async_eval` promises.
-/

namespace Verif.AsyncEval

variable {V E O : Type}

/-- Futures are made before they are used. -/
def Ordered (prog : List (Node V O)) : Prop :=
  ∀ (k : Nat) op args, prog[k]? = some (.eval op args) → ∀ j, .future j ∈ args → j < k

/-- The value of an input: itself, or the value of the future. -/
def argValue (value : Nat → Option (Value V E)) : Arg V → Option (Value V E)
  | .const v => some (.ok v)
  | .future j => value j

/-- The values of the inputs, if all futures have a value that is not an error. -/
def argValues (value : Nat → Option (Value V E)) (args : List (Arg V)) (vs : List V) : Prop :=
  args.map (argValue value) = vs.map fun v => some (.ok v)

/-- A result is right: the result of the operator for the values of the inputs, or an error of an input, or the
task was dropped. -/
def Right (evalOp : O → List V → Value V E) (orphaned : E) (value : Nat → Option (Value V E)) (op : O)
    (args : List (Arg V)) (dropped : Prop) (r : Value V E) : Prop :=
  (∃ vs, argValues value args vs ∧ r = evalOp op vs) ∨
  (∃ j e, .future j ∈ args ∧ value j = some (.error e) ∧ r = .error e) ∨
  (dropped ∧ r = .error orphaned ∧ ∃ vs, argValues value args vs)

/-- A state of a run that can be reached by some steps. -/
def Reached (evalOp : O → List V → Value V E) (internal orphaned : E) (prog : List (Node V O))
    (ops : List (Op V E)) (w : World V E) : Prop :=
  run evalOp internal orphaned prog (start prog) ops = some w

/-- A run in which no task was dropped. -/
def NoDrop (ops : List (Op V E)) : Prop := ∀ p, .drop p ∉ ops

/-- No step is possible but setting futures from outside. -/
def Idle (evalOp : O → List V → Value V E) (internal orphaned : E) (prog : List (Node V O))
    (w : World V E) : Prop :=
  ∀ op, (∀ k v, op ≠ .source k v) → step evalOp internal orphaned prog w op = none

end Verif.AsyncEval
