import Verif.Flatten.Model

/-!
What a copy as a tree is.
-/

namespace Verif.Flatten

variable {N K L E : Type} [DecidableEq N]

/-- The new value for a value that is found at the end of the chain `path` of items (the last item
first): leaves are kept, an item that is already more than `depth` times on the chain is missing, and
every other item is a copy of its own that belongs to the longer chain. -/
def Stands (depth : Nat) (chain : Nat → List N) (path : List N) : Value N L → Out L → Prop
  | .leaf l, o => o = .leaf l
  | .item m, o =>
    if path.count m > depth then o = .missing else ∃ c, o = .clone c ∧ chain c = m :: path

/-- All values are replaced, in order, and keys stay. -/
inductive Replaced (depth : Nat) (chain : Nat → List N) (path : List N) :
    List (K × Value N L) → List (K × Out L) → Prop where
  | nil : Replaced depth chain path [] []
  | cons {k v o ks os} : Stands depth chain path v o → Replaced depth chain path ks os →
    Replaced depth chain path ((k, v) :: ks) ((k, o) :: os)

/-- The values of one item of the new bag. -/
def contents (written : List (Nat × K × Out L)) (c : Nat) : List (K × Out L) :=
  (written.filter (fun w => w.1 = c)).map Prod.snd

/-- The copy in a value. -/
def Out.copy? : Out L → Option Nat
  | .clone c => some c
  | _ => none

/-- All copies that the result and the new bag refer to. -/
def references (outs : List (Out L)) (written : List (Nat × K × Out L)) : List Nat :=
  (outs ++ written.map (·.2.2)).filterMap Out.copy?

/-- The result is a forest: `chain c` is the chain of items from a root to the item that `c` copies.
Every copy is referred to once. It has the contents of its item. -/
structure Forest (next : N → Except E (List (K × Value N L))) (depth : Nat) (roots : List (Value N L))
    (outs : List (Out L)) (written : List (Nat × K × Out L)) (chain : Nat → List N) : Prop where
  roots : Replaced depth chain [] (roots.map fun v => ((), v)) (outs.map fun o => ((), o))
  once : (references outs written).Nodup
  only : ∀ w ∈ written, w.1 ∈ references outs written
  content : ∀ c ∈ references outs written, ∃ n path ks, chain c = n :: path ∧ next n = .ok ks ∧
    Replaced depth chain (chain c) ks (contents written c)

/-- Items that are found by following values from the roots. -/
inductive Reached (next : N → Except E (List (K × Value N L))) (roots : List (Value N L)) : N → Prop where
  | root {n} : .item n ∈ roots → Reached next roots n
  | step {n ks k m} : Reached next roots n → next n = .ok ks → (k, .item m) ∈ ks → Reached next roots m

/-- Following `keys` from the value `v₀` in the old data gives `v`; `path` are the items on the way. -/
inductive Old [DecidableEq K] (next : N → Except E (List (K × Value N L))) (v₀ : Value N L) :
    List K → List N → Value N L → Prop where
  | here : Old next v₀ [] [] v₀
  | key {keys path n ks k v} : Old next v₀ keys path (.item n) → next n = .ok ks →
    ks.lookup k = some v → Old next v₀ (keys ++ [k]) (n :: path) v

/-- Following `keys` from `o₀` in the new bag gives `o`. -/
inductive New [DecidableEq K] (written : List (Nat × K × Out L)) (o₀ : Out L) :
    List K → Out L → Prop where
  | here : New written o₀ [] o₀
  | key {keys c k o} : New written o₀ keys (.clone c) → (contents written c).lookup k = some o →
    New written o₀ (keys ++ [k]) o

/-- What a value looks like after a chain. -/
def Shown (depth : Nat) (path : List N) : Value N L → Out L → Prop
  | .leaf l, o => o = .leaf l
  | .item m, o => if path.count m > depth then o = .missing else ∃ c, o = .clone c

end Verif.Flatten
