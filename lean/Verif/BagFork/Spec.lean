import Verif.BagFork.Model

/-!
What forking means: bags are independent copies. A bag of the specification is a flag and a
function from list ids, an allocation and an offset, to lists. `none` is a list that nobody has
written in this bag or in the bags it was forked from.
-/

namespace Verif.BagFork

variable {A L : Type} [DecidableEq A]

/-- A bag of the specification. -/
structure SpecBag (A L : Type) where
  isMutable : Bool
  lists : A → Nat → Option L

/-- The bag with one list changed. A list that was never written starts as the empty list. -/
def SpecBag.change (emptyList : L) (bag : SpecBag A L) (alloc : A) (offset : Nat) (f : L → L) :
    SpecBag A L :=
  { bag with lists := fun a o =>
      if a = alloc ∧ o = offset then some (f ((bag.lists a o).getD emptyList)) else bag.lists a o }

/-- One call on independent copies. -/
def specStep (emptyList : L) (bags : List (SpecBag A L)) : Call A L → List (SpecBag A L)
  | .newBag m => bags ++ [⟨m, fun _ _ => none⟩]
  | .fork b immutable =>
    match bags[b]? with
    | none => bags
    | some bag => bags ++ [{ bag with isMutable := !immutable }]
  | .freeze b =>
    match bags[b]? with
    | none => bags
    | some bag => if bag.isMutable then bags ++ [{ bag with isMutable := false }] else bags
  | .makeImmutable b =>
    match bags[b]? with
    | none => bags
    | some bag => bags.set b { bag with isMutable := false }
  | .modify b alloc offset _ f =>
    match bags[b]? with
    | none => bags
    | some bag => if bag.isMutable then bags.set b (bag.change emptyList alloc offset f) else bags

/-- The offset of a list id is less than the capacity of its allocation. -/
def Call.Valid (c : Cfg A L) : Call A L → Prop
  | .modify _ alloc offset _ _ => offset < c.capacity alloc
  | _ => True

instance (c : Cfg A L) (call : Call A L) : Decidable (call.Valid c) := by
  cases call <;> simp only [Call.Valid] <;> infer_instance

end Verif.BagFork
