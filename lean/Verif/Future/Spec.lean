import Verif.Future.Model

/-!
What a history of a future says.
-/

namespace Verif.Future

variable {V E : Type}

/-- A history. -/
abbrev Trace (V E : Type) := List (Op V E × Out V E)

/-- The histories of a future, under any schedule. -/
def Reached (hasType : V → Bool) (orphaned : E) (w : World V E) (tr : Trace V E) : Prop :=
  ∃ ops, run hasType orphaned {} ops = (w, tr)

/-- The variable that holds the right to set the value, after one more step. `MakeFuture` puts it
into variable 0. -/
def ownerAfter (owner : Option Nat) : Op V E × Out V E → Option Nat
  | (.setValue i _, .done) => if owner = some i then none else owner
  | (.destroyWriter i, _) => if owner = some i then none else owner
  | (.overwriteWriter i, _) => if owner = some i then none else owner
  | (.moveWriter i, .writer j) => if owner = some i then some j else owner
  | _ => owner

/-- The variable that holds the right to set the value. -/
def owner (tr : Trace V E) : Option Nat := tr.foldl ownerAfter (some 0)

/-- The value a step gives to the future, if `i` holds the right to set it. -/
def valueBy (orphaned : E) (i : Option Nat) : Op V E × Out V E → Option (Value V E)
  | (.setValue j v, .done) => if i = some j then some v else none
  | (.destroyWriter j, _) => if i = some j then some (.error orphaned) else none
  | _ => none

/-- The value after one more step of a history. -/
def resultAfter (orphaned : E) (s : Option Nat × Option (Value V E)) (e : Op V E × Out V E) :
    Option Nat × Option (Value V E) :=
  (ownerAfter s.1 e, s.2.or (valueBy orphaned s.1 e))

/-- The value of the future: the one that the owner of the right set, and the cancelled error if the
owner is destroyed first. -/
def result (orphaned : E) (tr : Trace V E) : Option (Value V E) :=
  (tr.foldl (resultAfter orphaned) (some 0, none)).2

/-- The item a step gives to reader `r`. -/
def gotBy (r : Nat) : Op V E × Out V E → Option V
  | (.tryRead r', .read (.item v)) => if r' = r then some v else none
  | _ => none

/-- The items reader `r` got. -/
def got (r : Nat) (tr : Trace V E) : List V := tr.filterMap (gotBy r)

/-- What the stream of the future gives to a reader that got the items `items`. -/
def nextRead (result : Option (Value V E)) (items : List V) : ReadResult V E :=
  match result with
  | none => .empty
  | some (.error e) => .closed (some e)
  | some (.ok v) => if items = [] then .item v else .closed none

/-- The consumer a step adds. -/
def addedBy : Op V E × Out V E → Option Nat
  | (.addConsumer id, .done) => some id
  | (.subscribe _ id, .done) => some id
  | _ => none

/-- The consumers added. -/
def added (tr : Trace V E) : List Nat := tr.filterMap addedBy

/-- The consumer a step calls, and the value it gets. -/
def calledBy : Op V E × Out V E → Option Nat
  | (_, .called id _) => some id
  | _ => none

/-- The consumers called. -/
def called (tr : Trace V E) : List Nat := tr.filterMap calledBy

/-- The readers made. -/
def made (tr : Trace V E) : List Nat :=
  tr.filterMap fun
    | (_, .reader r) => some r
    | _ => none

end Verif.Future
