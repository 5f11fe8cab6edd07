import Verif.BagAttr.Model
/-
What it means for a bag to be well formed, and the specifications the theorems of
this area are stated with.  Nothing here refers to how the functions of the model
work.
-/

namespace Verif.BagAttr

/-! ### Well-formed data -/

/-- An allocation holds the objects it was made for. -/
def Alloc.WF (a : Alloc) : Prop := a.n ≤ a.capacity

/-- An object that exists. -/
structure Obj.Valid (o : Obj) : Prop where
  alloc : o.alloc.WF
  off : o.off < o.alloc.n

/-- A slice as `DataSliceImpl` guarantees it: it has one non-empty array for each
type; without a types buffer there is at most one array and nothing is unset. -/
structure Slice.WF (s : Slice) : Prop where
  nodup : s.types.Nodup
  mem : ∀ v, some (some v) ∈ s.cells → v.ty ∈ s.types
  used : ∀ t ∈ s.types, ∃ v, some (some v) ∈ s.cells ∧ v.ty = t
  noBuffer : s.tb = false → s.types.length ≤ 1 ∧ none ∉ s.cells

/-- The objects of a slice exist, and the allocation ids stored with the slice
cover them. -/
structure IdsWF (ids : List (Option Obj)) (allocs : List Alloc) (small : Bool) : Prop where
  valid : ∀ o, some o ∈ ids → o.Valid
  big : ∀ o, some o ∈ ids → o.alloc.isSmall = false → o.alloc ∈ allocs
  small : ∀ o, some o ∈ ids → o.alloc.isSmall = true → small = true
  nodup : allocs.Nodup
  wf : ∀ a ∈ allocs, a.WF ∧ a.isSmall = false

/-! ### Well-formed bags -/

structure Sparse.WF (al : Option Alloc) (s : Sparse) : Prop where
  alloc : s.alloc = al
  nodup : s.map.keys.Nodup
  keys : ∀ o ∈ s.map.keys, s.belongs o = true ∧ o.Valid

/-- A dense source covers all objects of the allocation and has no values beyond
them. -/
structure Rep.WF (n : Nat) (r : Rep) : Prop where
  size : n ≤ r.size
  beyond : ∀ i v, n ≤ i → r.get i ≠ some (some v)
  typed : ∀ ty vals mask, r = .typed ty vals mask →
    (∀ v, some v ∈ vals → v.ty = ty) ∧
    (∀ m, mask = some m → m.length = vals.length ∧
      ∀ (i : Nat) (v : Val), vals[i]? = some (some v) → m[i]? = some true)
  ro : ∀ s, r = .ro s → s.WF ∧ s.types ≠ []

structure Dense.WF (a : Alloc) (d : Dense) : Prop where
  alloc : d.alloc = a
  rep : d.rep.WF a.n
  size : d.rep.size ≤ a.capacity

structure Coll.WF (a : Alloc) (c : Coll) : Prop where
  sparse : ∀ s, c.sparse = some s → s.WF (some a)
  mutd : ∀ d, c.mutDense = some d →
    d.WF a ∧ d.rep.isMutable = true ∧ c.sparse = none ∧ c.constDense = none ∧
      c.lookupParent = false
  const : ∀ d, c.constDense = some d → d.WF a ∧ c.lookupParent = false

structure Layer.WF (l : Layer) : Prop where
  nodupSmall : l.small.keys.Nodup
  nodupBig : l.big.keys.Nodup
  small : ∀ attr s, l.small.get? attr = some s → s.WF none
  big : ∀ a attr c, l.big.get? (a, attr) = some c →
    a.WF ∧ a.isSmall = false ∧ c.WF a ∧ (c.lookupParent = true → c.sparse.isSome)

/-- The invariant of every bag the operations can produce. -/
def Bag.WF (b : Bag) : Prop := ∀ l ∈ b.layers, l.WF

/-- `b'` is what a successful operation has made of the mutable bag `b`. -/
structure Modified (b b' : Bag) : Prop where
  wf : b'.WF
  frozen : b'.frozen = false
  parents : b'.parents = b.parents
  id : b'.top.id = b.top.id

/-- An allocation the bag has never heard of. -/
def Fresh (b : Bag) (a : Alloc) : Prop := ∀ l ∈ b.layers, ∀ attr, l.big.get? (a, attr) = none

/-! ### Writing -/

/-- The values a batch write assigns to an object, in order. -/
def writesOf (ids : List (Option Obj)) (values : Slice) (o : Obj) : List Item :=
  (ids.zip values.cells).filterMap fun p => if p.1 = some o then some (p.2.getD none) else none

/-- What is known about an object after a batch write: nothing changes if it was
not written to; otherwise one of the values written to it is there, and it is the
last one, unless values of several types were written and the object itself was
given a missing value, or a value of another type, before. -/
def Written (values : Slice) (ws : List Item) (old new : Cell) : Prop :=
  (ws = [] → new = old) ∧
  (∀ last, ws.getLast? = some last →
    (∃ v ∈ ws, new = some v) ∧
    ((values.types.length ≤ 1 ∨ last = none ∨
        (∃ t, ∀ w ∈ ws, ∃ v, w = some v ∧ v.ty = t)) → new = some last))

/-! ### Merging -/

/-- Two values a merge does not distinguish: both missing, equal, or both NaN. -/
def Same (a b : Item) : Prop :=
  match a, b with
  | none, none => True
  | some x, some y => (x.ty = y.ty ∧ x.num = y.num ∧ x.nan = false ∧ y.nan = false) ∨
      (x.nan = true ∧ y.nan = true)
  | _, _ => False

/-- Two values that are the same for every kind of storage: `Same`, and of the
same type. -/
def StrictSame (a b : Item) : Prop :=
  Same a b ∧ ∀ x y, a = some x → b = some y → x.ty = y.ty

/-- Two bags know different values. -/
def Conflict (t o : Cell) : Prop := ∃ x y, t = some x ∧ o = some y ∧ ¬ StrictSame x y

/-- What a merge does to one attribute of one object: `t` is the value in the
bag that is merged into, `o` the one in the other bag, `r` the result.  `none` is
"not set", `some none` is "removed". -/
def Merged (p : Policy) (t o r : Cell) : Prop :=
  match t, o with
  | none, o => r = o
  | some t, none => r = some t
  | some t, some o =>
    match p with
    | .overwrite => r = some o
    | .keep => r = some t
    | .raise => Same t o ∧ (r = some t ∨ r = some o)

/-- A dense source that covers more than the objects of its allocation, has no
unset element, and at least one value. -/
def Oversized (a : Alloc) (d : Dense) : Prop :=
  a.n < d.rep.size ∧ (∀ i, i < d.rep.size → d.rep.get i ≠ none) ∧
    ∃ i v, d.rep.get i = some (some v)

/-- One of the sources of a bag is `Oversized`. -/
def HasOversized (b : Bag) : Prop :=
  ∃ l ∈ b.layers, ∃ a attr c d, l.big.get? (a, attr) = some c ∧
    (c.mutDense = some d ∨ c.constDense = some d) ∧ Oversized a d

/-- What can go wrong in a merge. -/
def MergeError (p : Policy) (b other : Bag) (e : Err) : Prop :=
  (e = .conflict ∧ p = .raise ∧
    ∃ (x : Obj) (attr : Attr), x.Valid ∧ Conflict (b.lookup x attr) (other.lookup x attr)) ∨
  (e = .outOfBounds ∧ HasOversized other)

/-- A layer stores the attribute of the objects of an allocation in an array. -/
def InArray (layers : List Layer) (a : Alloc) (attr : Attr) : Prop :=
  ∃ l ∈ layers, ∃ c d, l.big.get? (a, attr) = some c ∧
    (c.mutDense = some d ∨ c.constDense = some d)

/-- What a merge does to an attribute of an object.  The exception: if both bags
store the attribute in arrays and the array of the other bag has nothing but
removed values, it may be ignored. -/
def MergedAt (p : Policy) (b other b' : Bag) (x : Obj) (attr : Attr) : Prop :=
  Merged p (b.lookup x attr) (other.lookup x attr) (b'.lookup x attr) ∨
    (x.alloc.isSmall = false ∧ b'.lookup x attr = b.lookup x attr ∧
      InArray b.layers x.alloc attr ∧ InArray other.layers x.alloc attr ∧
      ∀ y : Obj, y.alloc = x.alloc → y.off < y.alloc.n → other.lookup y attr = some none)

/-- What an update made from `other` does to a reader that sees it before `b`. -/
def UpdatedAt (b other u : Bag) (x : Obj) (attr : Attr) : Prop :=
  (u.lookup x attr).or (b.lookup x attr) = (other.lookup x attr).or (b.lookup x attr) ∨
    (x.alloc.isSmall = false ∧ (u.lookup x attr).or (b.lookup x attr) = b.lookup x attr ∧
      InArray b.layers x.alloc attr ∧ InArray other.layers x.alloc attr ∧
      ∀ y : Obj, y.alloc = x.alloc → y.off < y.alloc.n → other.lookup y attr = some none)

/-- How the layers of two bags may be related: layers are shared together with all
that is below them, and the second bag does not build on the first one (it may be
the same bag or an unmodified fork of it). -/
structure Related (b other : Bag) : Prop where
  shared : ∀ l ls l' ls', l :: ls <:+ b.layers → l' :: ls' <:+ other.layers → l.id = l'.id →
    l :: ls = l' :: ls'
  own : ∀ l ∈ other.layers, l.id = b.top.id →
    other.layers = b.layers ∨ (other.parents = b.layers ∧ other.top.isPristine = true)

end Verif.BagAttr
