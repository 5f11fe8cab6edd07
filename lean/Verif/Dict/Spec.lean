import Verif.Dict.Model

/-!
What dicts mean. A layer is the list of the entries of one map; a dict is read through a list of
layers: its own map, those of its parents, then the layers of its first fallback, and so on. A
key is defined by the first layer that has it. A defined key may have the missing item as its
value: such a key was removed, and hides the fallbacks.
-/

namespace Verif.Dict

variable {K V : Type} [DecidableEq K]

/-- The layers of a dict: its map and the maps of its parents. -/
def layers (heap : List (Dict K V)) (d : Nat) : List (List (K × V)) :=
  dataOf heap d ::
    match _h : parentOf heap d with
    | none => []
    | some p => layers heap p
termination_by d
decreasing_by exact parentOf_lt _h

/-- The layers of a dict with fallbacks. -/
def allLayers (heap : List (Dict K V)) (d : Nat) (fallbacks : List Nat) : List (List (K × V)) :=
  (d :: fallbacks).flatMap (layers heap)

/-- The value of a key: the one in the first layer that has the key. -/
def valueIn (ls : List (List (K × V))) (key : K) : Option V := ls.findSome? (List.lookup key)

/-- Every map has each of its keys once, and parents are older than their children. -/
def WF (heap : List (Dict K V)) : Prop :=
  ∀ (d : Nat) (dict : Dict K V), heap[d]? = some dict →
    (dict.data.map Prod.fst).Nodup ∧ ∀ p, dict.parent = some p → p < d

/-- `stop` is `d` or one of its parents, and `ls` are the layers of `d` before those of `stop`. -/
inductive Before (heap : List (Dict K V)) (stop : Nat) : Nat → List (List (K × V)) → Prop where
  | refl : Before heap stop stop []
  | step {d p ls} : d ≠ stop → parentOf heap d = some p → Before heap stop p ls →
      Before heap stop d (dataOf heap d :: ls)

/-- The calls that change dicts. -/
inductive Op (K V : Type) where
  | newDicts (size : Nat)
  | forkDicts (first size : Nat)
  | forkDict (p size : Nat)
  | set (d : Nat) (key : K) (value : V)
  | getOrAssign (d : Nat) (key : K) (value : V)
  | clear (d : Nat)

/-- One call. -/
def step (c : Cfg K V) (heap : List (Dict K V)) : Op K V → List (Dict K V)
  | .newDicts size => newDicts heap size
  | .forkDicts first size => forkDicts heap first size
  | .forkDict p size => forkDict heap p size
  | .set d key value => set c heap d key value
  | .getOrAssign d key value => (getOrAssign c heap d key value).1
  | .clear d => clear c heap d

/-- The dict that a call changes. -/
def Op.target : Op K V → Option Nat
  | .set d _ _ | .getOrAssign d _ _ | .clear d => some d
  | _ => none

/-- The dicts that a call forks. -/
def Op.forked : Op K V → List Nat
  | .forkDicts first size => List.range' first size
  | .forkDict p _ => [p]
  | _ => []

/-- A sequence of calls in which dicts exist when they are used, and a dict is not changed after
it was forked: bags freeze the implementations that they fork (data_bag.h:97-105). `n` is the
number of dicts, `frozen` are the dicts that were forked. -/
def ValidOps : Nat → List Nat → List (Op K V) → Prop
  | _, _, [] => True
  | n, frozen, op :: ops =>
    (∀ d, op.target = some d → d < n ∧ d ∉ frozen) ∧
    (∀ d ∈ op.forked, d < n) ∧
    ValidOps (n + match op with
      | .newDicts size => size
      | .forkDicts _ size => size
      | .forkDict _ size => size
      | _ => 0) (op.forked ++ frozen) ops

/-- A dict of the specification is a partial function. -/
abbrev SpecDict (K V : Type) := K → Option V

/-- The empty dict. -/
def SpecDict.empty : SpecDict K V := fun _ => none

/-- One call on plain dicts, where a fork is a copy. -/
def specStep (c : Cfg K V) (dicts : List (SpecDict K V)) : Op K V → List (SpecDict K V)
  | .newDicts size => dicts ++ List.replicate size .empty
  | .forkDicts first size => dicts ++ (List.range' first size).map fun p => dicts.getD p .empty
  | .forkDict p size => dicts ++ List.replicate size (dicts.getD p .empty)
  | .set d key value =>
    dicts.modify d fun m k => if c.supported key = true ∧ k = key then some value else m k
  | .getOrAssign d key value =>
    dicts.modify d fun m k =>
      if c.supported key = true ∧ k = key ∧ (m k).isNone = true then some value else m k
  | .clear d => dicts.modify d fun m k => (m k).map fun _ => c.missing

end Verif.Dict
