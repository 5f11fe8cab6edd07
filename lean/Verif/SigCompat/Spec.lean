import Verif.SigCompat.Model
/-
What it means that a functor can take the place of another one.
-/

namespace Verif.SigCompat

open Verif.Binding

variable {V : Type}

/-- A functor with the signature `s` can be called with these arguments: the call
binds (`BindArguments`, see C43). -/
def Works (c : Cfg V) (s : Signature V) (pos : List V) (kw : List (String × V)) : Prop :=
  ∃ out, bindArguments c s (pos ++ kw.map Prod.snd) (kw.map Prod.fst) = .ok out

/-- Every call that works for `s` works for `t`. -/
def Compatible (c : Cfg V) (s t : Signature V) : Prop :=
  ∀ (pos : List V) (kw : List (String × V)), Works c s pos kw → Works c t pos kw

/-- Has a parameter of a kind. -/
def Has (ps : List (Parameter V)) (k : Kind) : Prop := ∃ p ∈ ps, p.kind = k

/-- The call with as few arguments as possible: everything without a default is passed,
by name unless it is positional-only. -/
structure Least (old : List (Parameter V)) (pos : List V) (kw : List (String × V)) : Prop where
  distinct : (kw.map Prod.fst).Nodup
  positions : ∀ (i : Nat), i < pos.length ↔
    ∃ p, old[i]? = some p ∧ p.kind = .positionalOnly ∧ p.default = none
  names : ∀ name, name ∈ kw.map Prod.fst ↔
    ∃ p ∈ old, p.keyword = true ∧ p.default = none ∧ p.name = name

/-- A call with many arguments: everything that can be is passed by position, with ten
arguments for `*args`, and one odd name for `**kwargs`. -/
structure Most (old : List (Parameter V)) (pos : List V) (kw : List (String × V)) : Prop where
  distinct : (kw.map Prod.fst).Nodup
  few : ¬ Has old .varPositional → pos.length = slots old
  many : Has old .varPositional → pos.length = slots old + 10
  names : ∀ name, name ∈ kw.map Prod.fst ↔
    (∃ p ∈ old, p.kind = .keywordOnly ∧ p.name = name) ∨
    (Has old .varKeyword ∧ name = "__argument_that_does_not_exist__")

/-- What the two calls that are tried do not find out. -/
structure Aligned (old new : List (Parameter V)) : Prop where
  /-- `*args` stays -/
  args : Has old .varPositional → Has new .varPositional
  /-- `**kwargs` stays -/
  kwargs : Has old .varKeyword → Has new .varKeyword
  /-- the name of a parameter that can be passed by name is a name for the new functor -/
  names : ∀ p ∈ old, p.keyword = true → takes new p.name = true ∨ Has new .varKeyword
  /-- a parameter that both take by name is of the same kind, and at the same place if it can be
  passed by position -/
  places : ∀ (i j : Nat) (p q : Parameter V), old[i]? = some p → new[j]? = some q →
    p.keyword = true → q.keyword = true → p.name = q.name →
      p.kind = q.kind ∧ (p.positional = true → i = j)
  /-- if the old one has `**kwargs`, then the positions of its parameters (all positions, if it has
  `*args`) have no new names -/
  fresh : Has old .varKeyword → ∀ (j : Nat) (q : Parameter V), new[j]? = some q →
    q.kind = .positionalOrKeyword → (j < slots old ∨ Has old .varPositional) →
      takes old q.name = true

end Verif.SigCompat
