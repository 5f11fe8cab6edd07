import Verif.Clone.Model
import Verif.Traverse.Total

/-!
Specification of `kd.deep_clone`: what a clone of a slice is.
-/

namespace Verif.Clone

open Verif.ObjectId
open Verif.Uuid
open Verif.Traverse

/-- The id of a schema that is not tied to an object. -/
def Explicit (o : ObjectId) : Prop := o.isSchema = true ∧ o.isImplicitSchema = false

instance (o : ObjectId) : Decidable (Explicit o) := inferInstanceAs (Decidable (_ ∧ _))

/-- Everything is followed but the references to explicit schemas. -/
def follow (_ : Pair) (_ : Option Key) : Pair → Bool
  | (.object o, .dtype 12) => o.isImplicitSchema
  | _ => true

/-- What a clone of a slice looks at. -/
def Reached (b : Bag) (ds : List Item) (s : Item) (p : Pair) : Prop :=
  ∃ r, Root follow ds s r ∧ Reach (Edge b follow) r p

/-- The ids that get a new id: items and implicit schemas that can be reached. -/
def Cloned (b : Bag) (ds : List Item) (s : Item) (x : ObjectId) : Prop :=
  ∃ t, Reached b ds s (.object x, t) ∧ (t = .dtype 11 ∨ t = .dtype 12 ∨ ∃ T, t = .object T)

/-- The copy of a value with the schema `t`, when `c` gives the new ids: ids that are meant as
values and explicit schemas stay. -/
def copied (c : ObjectId → ObjectId) (y t : Item) : Item :=
  match y with
  | .object o => if t = .dtype 10 ∨ Explicit o then y else .object (c o)
  | _ => y

/-- The ids in a slice and in a bag. -/
inductive Mentioned (b : Bag) (ds : List Item) (s : Item) : ObjectId → Prop where
  | item {o : ObjectId} : .object o ∈ ds → Mentioned b ds s o
  | schema {o : ObjectId} : s = .object o → Mentioned b ds s o
  | attr {x o : ObjectId} {n : Name} : b.attr x n = .object o → Mentioned b ds s o
  | list {x o : ObjectId} : .object o ∈ b.list x → Mentioned b ds s o
  | key {x o : ObjectId} {v : Item} : (.object o, v) ∈ b.dict x → Mentioned b ds s o
  | value {x o : ObjectId} {k : Item} : (k, .object o) ∈ b.dict x → Mentioned b ds s o
  | schemaAttr {S o : ObjectId} {n : Name} : (n, .object o) ∈ b.schemaAttrs S → Mentioned b ds s o

/-- Ordinary data: objects have schemas of their own, the implicit schema of an object is the one
made for it, and implicit schemas are not used for anything else than for their object (but they
may be values). -/
structure Ordinary {S : Type} (H : HashFn S) (b : Bag) (ds : List Item) (s : Item) : Prop where
  own : ∀ x, b.attr x (named "__schema__") = .missing ∨
    ∃ T, b.attr x (named "__schema__") = .object T
  implicit : ∀ x T, b.attr x (named "__schema__") = .object T → T.isImplicitSchema = true →
    T = implicitOf H x ∧ x.isSchema = false
  declared : ∀ U n T, (n, .object T) ∈ b.schemaAttrs U → T.isImplicitSchema = false
  root : ∀ T, s = .object T → T.isImplicitSchema = false
  names : ∀ U t, (named "__schema__", t) ∉ b.schemaAttrs U
  keys : ∀ x, ((b.dict x).map (·.1)).Nodup
  data : ∀ x t, Reached b ds s (.object x, t) → (t = .dtype 11 ∨ ∃ T, t = .object T) →
    x.isSchema = false
  one : ∀ x s1 s2 T1 T2, Reached b ds s (.object x, s1) → Reached b ds s (.object x, s2) →
    Own b x s1 (.object T1) → Own b x s2 (.object T2) → T1 = T2

/-- What can be declared as a schema: a dtype or the id of a schema. -/
def SchemaItem (t : Item) : Prop := (∃ n, t = .dtype n) ∨ ∃ T, t = .object T

/-- All data that is looked at is well-typed, and there is no metadata. -/
structure Clonable (b : Bag) (ds : List Item) (s : Item) : Prop where
  top : s ≠ .dtype 12 ∧ SchemaItem s
  items : ∀ y ∈ ds, Fits (y, s)
  typed : ∀ x s', Reached b ds s (.object x, s') → ∃ e, Own b x s' e ∧ Typed b x e ∧
    (s' = .dtype 11 → ∃ T, e = .object T)
  declared : ∀ U n t, (n, t) ∈ b.schemaAttrs U → ¬ AboutSchema n → SchemaItem t
  metadata : ∀ T t, Reached b ds s (.object T, .dtype 12) →
    (named "__schema_metadata__", t) ∉ b.schemaAttrs T
  schemas : ∀ x s' e k o, Reached b ds s (.object x, s') → Own b x s' e →
    Ref b x e k (.object o, .dtype 12) → o.isSchema = true

/-- The first `n` allocations of a process, after the ids in `old` were made: they are different
from each other and from the old ones, and they have the asked kind and size. -/
structure NewIds (alloc : Nat → BitVec 6 → BitVec 6 → AllocationId) (n : Nat)
    (old : ObjectId → Prop) : Prop where
  kind : ∀ i m k, (alloc i m k).raw.metadata = m
  bits : ∀ i m k, (alloc i m k).raw.offsetBits = k
  base : ∀ i m k, AllocationId.ofObject (alloc i m k).raw = alloc i m k
  distinct : ∀ i j m k m' k', i < j → j < n → alloc i m k ≠ alloc j m' k'
  new : ∀ i m k o, i < n → old o → AllocationId.ofObject o ≠ alloc i m k

/-- An object with the implicit schema made for it. -/
def HasImplicit {S : Type} (H : HashFn S) (b : Bag) (x : ObjectId) : Prop :=
  b.attr x (named "__schema__") = .object (implicitOf H x)

/-- The hash function has no collisions for the implicit schemas of the objects of the bag and of
their clones, and the implicit schemas of the clones are not among the old ids. -/
structure NoCollision {S : Type} (H : HashFn S)
    (alloc : Nat → BitVec 6 → BitVec 6 → AllocationId) (n : Nat) (b : Bag)
    (old : ObjectId → Prop) : Prop where
  objects : ∀ x y, HasImplicit H b x → HasImplicit H b y →
    AllocationId.ofObject (implicitOf H x) = AllocationId.ofObject (implicitOf H y) →
    AllocationId.ofObject x = AllocationId.ofObject y
  new : ∀ i j x y, i < n → j < n → HasImplicit H b x → HasImplicit H b y →
    AllocationId.ofObject (implicitOf H (alloc i (x.metadata &&& ~~~1#6) x.offsetBits).raw) =
      AllocationId.ofObject (implicitOf H (alloc j (y.metadata &&& ~~~1#6) y.offsetBits).raw) →
    alloc i (x.metadata &&& ~~~1#6) x.offsetBits = alloc j (y.metadata &&& ~~~1#6) y.offsetBits
  apart : ∀ i x o, i < n → HasImplicit H b x → old o → AllocationId.ofObject o ≠
    AllocationId.ofObject (implicitOf H (alloc i (x.metadata &&& ~~~1#6) x.offsetBits).raw)

/-- The explicit schemas that are used: the schema of the slice, and the ones that something that
is looked at refers to as to a schema. -/
def UsedSchema (b : Bag) (ds : List Item) (s : Item) (o : ObjectId) : Prop :=
  o.isImplicitSchema = false ∧ (s = .object o ∨
    ∃ x t e k, Reached b ds s (.object x, t) ∧ Own b x t e ∧ Ref b x e k (.object o, .dtype 12))

/-- `Content b R c g`: the bag `g` contains copies of the items in `R`, under their new ids, and
nothing else. -/
structure Content (b : Bag) (R : Pair → Prop) (c : ObjectId → ObjectId) (g : NewBag) : Prop where
  /-- A copied object has a schema of its own. -/
  schema : ∀ x e, R (.object x, .dtype 11) → Own b x (.dtype 11) e →
    g.attr (c x) (named "__schema__") = copied c e (.dtype 12)
  lists : ∀ x s T t, R (.object x, s) → Own b x s (.object T) → T.isNoFollowSchema = false →
    ListSchema b T t → g.list (c x) = (b.list x).map (fun y => copied c y t)
  dicts : ∀ x s T k v, R (.object x, s) → Own b x s (.object T) → T.isNoFollowSchema = false →
    DictSchema b T k v → ∀ y' z', g.dict (c x) y' = some z' ↔
      ∃ y z, (y, z) ∈ b.dict x ∧ y' = copied c y k ∧ z' = copied c z v
  attrs : ∀ x s T n t, R (.object x, s) → Own b x s (.object T) → T.isNoFollowSchema = false →
    PlainSchema b T → (n, t) ∈ b.schemaAttrs T → ¬ AboutSchema n →
    g.attr (c x) n = copied c (b.attr x n) t
  /-- The attributes of an implicit schema; its name is dropped. -/
  schemas : ∀ x n y k, R (.object x, .dtype 12) → (n, y) ∈ b.schemaAttrs x →
    AttrKind n k → n ≠ named "__schema_name__" → g.schemaAttr (c x) n = copied c y k
  onlyAttr : ∀ o n, g.attr o n ≠ .missing → ∃ x s, R (.object x, s) ∧ o = c x ∧
    ((n = named "__schema__" ∧ s = .dtype 11) ∨
      ∃ T t, Own b x s (.object T) ∧ T.isNoFollowSchema = false ∧ PlainSchema b T ∧
        (n, t) ∈ b.schemaAttrs T ∧ ¬ AboutSchema n)
  onlyList : ∀ o, g.list o ≠ [] → ∃ x s T t, R (.object x, s) ∧
    Own b x s (.object T) ∧ o = c x ∧ T.isNoFollowSchema = false ∧ ListSchema b T t
  onlyDict : ∀ o k', g.dict o k' ≠ none → ∃ x s T k v, R (.object x, s) ∧
    Own b x s (.object T) ∧ o = c x ∧ T.isNoFollowSchema = false ∧ DictSchema b T k v
  onlySchema : ∀ o n, g.schemaAttr o n ≠ .missing → ∃ x y, R (.object x, .dtype 12) ∧
    o = c x ∧ (n, y) ∈ b.schemaAttrs x ∧ n ≠ named "__schema_name__"

/-- `IsClone H b ds s c out g`: the slice `out` with the bag `g` is a clone of the slice `ds`
with the schema `s` and the bag `b`, where `c` gives the new ids. -/
structure IsClone {S : Type} (H : HashFn S) (b : Bag) (ds : List Item) (s : Item)
    (c : ObjectId → ObjectId) (out : List Item) (g : NewBag) : Prop where
  /-- The items of the slice. -/
  items : out = ds.map (fun y => copied c y s)
  /-- Different ids get different new ids. -/
  distinct : ∀ x y, Cloned b ds s x → Cloned b ds s y → c x = c y → x = y
  /-- The new ids are new. -/
  fresh : ∀ x, Cloned b ds s x → ¬ Mentioned b ds s (c x)
  /-- Ids of one allocation stay together. -/
  together : ∀ x y, Cloned b ds s x → Cloned b ds s y →
    AllocationId.ofObject x = AllocationId.ofObject y →
    AllocationId.ofObject (c x) = AllocationId.ofObject (c y)
  /-- A new id is of the same kind as the old one, but it is not a uuid. -/
  kind : ∀ x, Cloned b ds s x → x.isSchema = false →
    (c x).metadata = x.metadata &&& ~~~1#6 ∧ (c x).offset = x.offset
  /-- The implicit schema of a cloned object is the one of its clone. -/
  implicit : ∀ x T, Reached b ds s (.object x, .dtype 11) → Own b x (.dtype 11) (.object T) →
    T.isImplicitSchema = true → c T = implicitOf H (c x)
  /-- The bag contains a copy of everything that can be reached. -/
  content : Content b (Reached b ds s) c g

end Verif.Clone
