import Verif.Functor.Model
import Verif.Binding.Spec

/-!
What a functor with variables means: `V.name` stands for the attribute `name`, an expression there is
evaluated, and a call returns the value of `V.returns`.
-/

namespace Verif.Functor

open Verif.Binding (Parameter Bound PyBinds)

variable {Op V : Type}

/-- `V.name` occurs in an expression. -/
inductive Mentions : Expr Op V → String → Prop where
  | var (name : String) : Mentions (.var name) name
  | node {op args e name} : e ∈ args → Mentions e name → Mentions (.node op args) name

/-- `I.name` occurs in an expression. -/
inductive Asks : Expr Op V → String → Prop where
  | input (name : String) : Asks (.input name) name
  | node {op args e name} : e ∈ args → Asks e name → Asks (.node op args) name

/-- The expression of the variable `a` mentions the variable `b`. -/
def Uses (F : Fn Op V) (a b : String) : Prop := ∃ e, F.attr a = some (.quote e) ∧ Mentions e b

/-- `a` needs `b`, in one or more steps. -/
inductive Path (F : Fn Op V) : String → String → Prop where
  | one {a b} : Uses F a b → Path F a b
  | more {a b c} : Uses F a b → Path F b c → Path F a c

/-- The variables that the result needs. -/
def Reached (F : Fn Op V) (name : String) : Prop := name = "returns" ∨ Path F "returns" name

/-- An order of evaluation: all needed variables, each of them once and after those that it uses; the
result is the last. -/
structure GoodOrder (F : Fn Op V) (order : List String) : Prop where
  once : order.Nodup
  all : ∀ name, name ∈ order ↔ Reached F name
  after : ∀ before name rest, order = before ++ name :: rest → ∀ d, Uses F name d → d ∈ before
  last : order.getLast? = some "returns"

/-- The value of an attribute that is not an expression: objects and missing items have the bag of
the functor, other items have none. -/
def attached (K : Kit Op V) : Item → V
  | .missing => K.withSelf .missing
  | .object id => K.withSelf (.object id)
  | .prim n => K.item (.prim n)

mutual

/-- The value of an expression, for given inputs. -/
inductive Evals (K : Kit Op V) (F : Fn Op V) (given : String → V → Prop) : Expr Op V → V → Prop where
  | input {name v} : given name v → Evals K F given (.input name) v
  | lit (v) : Evals K F given (.lit v) v
  | node {op args vs v} : EvalsAll K F given args vs → K.apply op vs = .ok v →
      Evals K F given (.node op args) v
  | expr {name e v} : F.attr name = some (.quote e) → Evals K F given e v →
      Evals K F given (.var name) v
  | item {name i} : F.attr name = some (.item i) → Evals K F given (.var name) (attached K i)

/-- The values of some expressions. -/
inductive EvalsAll (K : Kit Op V) (F : Fn Op V) (given : String → V → Prop) :
    List (Expr Op V) → List V → Prop where
  | nil : EvalsAll K F given [] []
  | cons {e es v vs} : Evals K F given e v → EvalsAll K F given es vs →
      EvalsAll K F given (e :: es) (v :: vs)

end

/-- An operator fails, in an expression or in one that it needs. -/
inductive Raises (K : Kit Op V) (F : Fn Op V) (given : String → V → Prop) :
    Expr Op V → String → Prop where
  | here {op args vs m} : EvalsAll K F given args vs → K.apply op vs = .error m →
      Raises K F given (.node op args) m
  | arg {op args e m} : e ∈ args → Raises K F given e m → Raises K F given (.node op args) m
  | var {name e m} : F.attr name = some (.quote e) → Raises K F given e m →
      Raises K F given (.var name) m

/-- The inputs of a call: the parameters, and the bag of the functor. -/
def Given (K : Kit Op V) (ps : List (Parameter V)) (bound : List (Bound V)) (name : String) (v : V) :
    Prop :=
  (name = "__bag" ∧ v = K.selfBag) ∨
    ∃ (i : Nat) (p : Parameter V) (b : Bound V), ps[i]? = some p ∧ p.name = name ∧
      bound[i]? = some b ∧ v = K.bound b

/-- What is wrong with a call, for every error. -/
def Wrong (K : Kit Op V) (F : Fn Op V) (ps : List (Parameter V)) (pos : List V)
    (kw : List (String × V)) : Err → Prop
  | .cycle name => Reached F name ∧ Path F name name
  | .noAttr name => Reached F name ∧ F.attr name = none
  | .bind e => Binding.Wrong ps pos kw e
  | .missingInputs names => names ≠ [] ∧ ∀ name ∈ names, name ∉ ps.map Parameter.name ∧
      ∃ a e, Reached F a ∧ F.attr a = some (.quote e) ∧ Asks e name
  | .op m => ∃ bound, PyBinds K.cfg ps pos kw bound ∧
      Raises K F (Given K ps bound) (.var "returns") m
  | _ => False

end Verif.Functor
