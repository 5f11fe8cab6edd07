import Verif.BagSave.Model
/-
What saving and loading must preserve.
-/

namespace Verif.BagSave

open Verif.BagAttr

/-- Every element is written once, in whatever order. -/
structure Order.WF (K : Order) : Prop where
  attrs : ∀ l, (K.attrs l).Perm l
  allocs : ∀ l, (K.allocs l).Perm l
  items : ∀ l, (K.items l).Perm l

/-- No object of the allocation has a value of the attribute. -/
def NoValue (b : Bag) (a : Alloc) (attr : Attr) : Prop :=
  ∀ y : Obj, y.Valid → y.alloc = a → ∀ v, b.lookup y attr ≠ some (some v)

/-- What is known about an object after saving and loading: what was known before,
except that an array without any value is forgotten, together with the removals in
it. -/
def SavedAt (b b' : Bag) (x : Obj) (attr : Attr) : Prop :=
  b'.lookup x attr = b.lookup x attr ∨
    (b'.lookup x attr = none ∧ x.alloc.isSmall = false ∧ InArray b.layers x.alloc attr ∧
      NoValue b x.alloc attr)

/-- The checks a saved bag must pass: every chunk refers to a value; a chunk of
many values begins at the first object of an allocation, and they fit into it. -/
def Chunk.Ok (ins : List Input) (c : Chunk) : Prop :=
  ∃ inp, ins[c.sub]? = some inp ∧ ∀ s, inp = .slice s →
    c.first.off = 0 ∧ s.cells.length ≤ c.first.alloc.capacity

/-- Why loading a chunk can fail: one of the checks, or the bag does not accept
the value. -/
def Chunk.Fails (ins : List Input) (c : Chunk) (e : LoadErr) : Prop :=
  match e with
  | .badIndex => ins.length ≤ c.sub
  | .badOffset => ∃ s, ins[c.sub]? = some (.slice s) ∧ c.first.off ≠ 0
  | .tooManyValues => ∃ s, ins[c.sub]? = some (.slice s) ∧ c.first.off = 0 ∧
      c.first.alloc.capacity < s.cells.length
  | .bag _ => c.Ok ins

end Verif.BagSave
