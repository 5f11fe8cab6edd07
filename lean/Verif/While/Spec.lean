import Verif.While.Model

/-!
What a while loop does, in terms of the list of the updates that its body returned.
-/

namespace Verif.While

variable {F V T : Type}

/-- The updates that a body returned, one after the other: the fields of its namedtuples. -/
abbrev Updates (V : Type) := List (List (String × V))

/-- The value of a variable after some updates: the last one. -/
def valueOf (initial : V) (name : String) : Updates V → V
  | [] => initial
  | u :: us => valueOf ((u.lookup name).getD initial) name us

/-- The values that a variable yields: the initial one, and all updates. -/
def yielded (initial : V) (name : String) (us : Updates V) : List V :=
  initial :: us.filterMap fun u => u.lookup name

/-- The values of variables after some updates. -/
def valuesAfter (vars : List (String × V)) (us : Updates V) : List V :=
  vars.map fun x => valueOf x.2 x.1 us

/-- The condition returns a MASK item that is present (`present`) or missing. -/
def Holds (K : Kit F V T) (cond : F) (vars : List (String × V)) (us : Updates V) (present : Bool) :
    Prop :=
  ∃ v s, K.call cond (valuesAfter vars us) (vars.map Prod.fst) = .ok v ∧ K.slice v = some s ∧
    s.isItem = true ∧ (s.schema = .mask ∨ s.schema = .object) ∧
    s.item = if present = true then .unit else .missing

/-- The body returns a namedtuple with these fields. -/
def Returns (K : Kit F V T) (body : F) (vars : List (String × V)) (us : Updates V)
    (u : List (String × V)) : Prop :=
  ∃ v, K.call body (valuesAfter vars us) (vars.map Prod.fst) = .ok v ∧ K.fields v = some u

/-- The fields of an update are variables (of either sort), with values of the same type as the
initial ones. -/
def Fits (K : Kit F V T) (all : List (String × V)) (u : List (String × V)) : Prop :=
  ∀ f ∈ u, ∃ v, (f.1, v) ∈ all ∧ K.type v = K.type f.2

/-- The loop has run for some iterations: each time the condition was present, and the body returned
an update. `yields` and `vars` are the variables that yield and those that do not. -/
def Ran (K : Kit F V T) (cond body : F) (yields vars : List (String × V)) (us : Updates V) : Prop :=
  ∀ before u after, us = before ++ u :: after →
    Holds K cond vars before true ∧ Returns K body vars before u ∧ Fits K (yields ++ vars) u

/-- The result after the last iteration. -/
def resultOf (yields vars : List (String × V)) (us : Updates V) : List (Out V) :=
  (yields.map fun x => .sequence (yielded x.2 x.1 us)) ++ (valuesAfter vars us).map .value

/-- What is wrong in the iteration after some updates. -/
def WrongIteration (K : Kit F V T) (cond body : F) (yields vars : List (String × V))
    (us : Updates V) : Err → Prop
  | .call m => K.call cond (valuesAfter vars us) (vars.map Prod.fst) = .error m ∨
      (Holds K cond vars us true ∧
        K.call body (valuesAfter vars us) (vars.map Prod.fst) = .error m)
  | .notSlice => ∃ v, K.call cond (valuesAfter vars us) (vars.map Prod.fst) = .ok v ∧
      K.slice v = none
  | .notMask => ∃ v s, K.call cond (valuesAfter vars us) (vars.map Prod.fst) = .ok v ∧
      K.slice v = some s ∧
      ¬ (s.isItem = true ∧ (s.schema = .mask ∨ s.schema = .object) ∧
        (s.item = .unit ∨ s.item = .missing))
  | .notTuple => Holds K cond vars us true ∧
      ∃ v, K.call body (valuesAfter vars us) (vars.map Prod.fst) = .ok v ∧ K.fields v = none
  | .unknownField name => Holds K cond vars us true ∧
      ∃ u v, Returns K body vars us u ∧ (name, v) ∈ u ∧ name ∉ (yields ++ vars).map Prod.fst
  | .type name => Holds K cond vars us true ∧
      ∃ u v v0, Returns K body vars us u ∧ (name, v) ∈ u ∧ (name, v0) ∈ yields ++ vars ∧
        K.type v0 ≠ K.type v
  | _ => False

end Verif.While
