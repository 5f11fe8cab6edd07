import Verif.Compare.Model
import Verif.Traverse.Spec

/-!
Specification of the comparison: the parts of an item, and when two items agree in all of
their parts, the parts of these and so on.
-/

namespace Verif.Compare

open Verif.ObjectId
open Verif.Uuid
open Verif.Traverse (Bag Name Pair named ListSchema DictSchema PlainSchema AboutSchema AttrKind Own)

/-- The name of a part of an item. A list or a dict without items still says what the schema of
its items is. -/
inductive Label where
  | item (i : Nat)
  | noItems
  | key (k : Item)
  | noKeys
  | value (k : Item)
  | noValues
  | attr (n : Name)
  | schemaAttr (n : Name)
deriving DecidableEq, Repr

/-- The items of a list. -/
def itemsOf (b : Bag) : Item → List Item
  | .object o => b.list o
  | _ => []

/-- The items of a dict. -/
def dictOf (b : Bag) : Item → List (Item × Item)
  | .object o => b.dict o
  | _ => []

/-- An attribute. -/
def attrOf (b : Bag) (x : Item) (n : Name) : Item :=
  match x with
  | .object o => b.attr o n
  | _ => .missing

/-- The item `x`, whose own schema is `e`, has a part with a name. -/
inductive Part (b : Bag) (x : Item) : Item → Label → Pair → Prop where
  | item {S : ObjectId} {t y : Item} {i : Nat} : S.isNoFollowSchema = false → ListSchema b S t →
      (itemsOf b x)[i]? = some y → Part b x (.object S) (.item i) (y, t)
  | noItems {S : ObjectId} {t : Item} : S.isNoFollowSchema = false → ListSchema b S t →
      itemsOf b x = [] → Part b x (.object S) .noItems (.missing, t)
  | key {S : ObjectId} {kt vt k v : Item} : S.isNoFollowSchema = false → DictSchema b S kt vt →
      (k, v) ∈ dictOf b x → Part b x (.object S) (.key k) (k, kt)
  | value {S : ObjectId} {kt vt k v : Item} : S.isNoFollowSchema = false → DictSchema b S kt vt →
      (k, v) ∈ dictOf b x → Part b x (.object S) (.value k) (v, vt)
  | noKeys {S : ObjectId} {kt vt : Item} : S.isNoFollowSchema = false → DictSchema b S kt vt →
      dictOf b x = [] → Part b x (.object S) .noKeys (.missing, kt)
  | noValues {S : ObjectId} {kt vt : Item} : S.isNoFollowSchema = false → DictSchema b S kt vt →
      dictOf b x = [] → Part b x (.object S) .noValues (.missing, vt)
  | attr {S : ObjectId} {n : Name} {t : Item} : S.isNoFollowSchema = false → PlainSchema b S →
      (n, t) ∈ b.schemaAttrs S → ¬ AboutSchema n → Part b x (.object S) (.attr n) (attrOf b x n, t)
  | schemaAttr {S : ObjectId} {n : Name} {y k : Item} : x = .object S → S.isNoFollowSchema = false →
      (n, y) ∈ b.schemaAttrs S → AttrKind n k → Part b x (.dtype 12) (.schemaAttr n) (y, k)

/-- The schema an item really has. -/
inductive OwnSchema (b : Bag) : Pair → Item → Prop where
  | object {o : ObjectId} {s e : Item} : Own b o s e → OwnSchema b (.object o, s) e
  | other {x s : Item} : (∀ o, x ≠ .object o) → OwnSchema b (x, s) s

/-- The parts of an item with a schema. -/
def Has (b : Bag) (p : Pair) (n : Label) (q : Pair) : Prop := ∃ e, OwnSchema b p e ∧ Part b p.1 e n q

/-- In a bag the attributes of a schema have different names, and the keys of a dict are
different. -/
structure BagOk (b : Bag) : Prop where
  attrs : b.Ok
  dicts : ∀ o, ((b.dict o).map (·.1)).Nodup

/-- The comparison of values of the same type is an order. -/
structure ValueOrder (lt : Item → Item → Bool) : Prop where
  irrefl : ∀ a, lt a a = false
  trans : ∀ a b c, lt a b = true → lt b c = true → lt a c = true
  total : ∀ a b, typeId a = typeId b → a ≠ b → lt a b = true ∨ lt b a = true

/-- What can be read: the parts of `x` with its own schema `e`. -/
inductive Readable (b : Bag) (x : Item) : Item → Prop where
  | dtype {n : Fin 14} : n ≠ 12 → Readable b x (.dtype n)
  | noId : (∀ o, x ≠ .object o) → Readable b x (.dtype 12)
  | noFollowId {o : ObjectId} : x = .object o → o.isNoFollowSchema = true → Readable b x (.dtype 12)
  | schema {o : ObjectId} : x = .object o → o.isSchema = true → Readable b x (.dtype 12)
  | noFollow {S : ObjectId} : S.isNoFollowSchema = true → Readable b x (.object S)
  | list {S : ObjectId} {t : Item} : S.isSchema = true → ListSchema b S t →
      (x = .missing ∨ ∃ o, x = .object o ∧ o.isList = true) → Readable b x (.object S)
  | dict {S : ObjectId} {kt vt : Item} : S.isSchema = true → DictSchema b S kt vt →
      (x = .missing ∨ ∃ o, x = .object o ∧ o.isDict = true) → Readable b x (.object S)
  | entity {S : ObjectId} : S.isSchema = true → PlainSchema b S →
      (x = .missing ∨ ∃ o, x = .object o) → Readable b x (.object S)
  | noAttrs {S : ObjectId} : S.isSchema = true → (∀ n t, (n, t) ∈ b.schemaAttrs S → AboutSchema n) →
      Readable b x (.object S)

/-- The parts of an item with a schema can be read. -/
def CanRead (b : Bag) (p : Pair) : Prop := ∃ e, OwnSchema b p e ∧ Readable b p.1 e

/-! ### Comparisons -/

/-- The rules of a comparison: which items are alike, which of these are compared further, and
which differences between the parts of two items matter: parts that only one of them has,
and parts of both that are not alike. -/
structure Rules where
  alike : Pair → Pair → Prop
  deep : Pair → Pair → Prop
  left : Label → Pair → Prop
  right : Label → Pair → Prop
  both : Label → Pair → Pair → Prop

/-- A relation between the items of two bags that agree in everything that matters. -/
structure Simulation (ρ : Rules) (bl br : Bag) (R : Pair → Pair → Prop) : Prop where
  alike : ∀ l r, R l r → ρ.alike l r
  both : ∀ l r n p q, R l r → ρ.deep l r → Has bl l n p → Has br r n q →
    R p q ∨ (¬ ρ.alike p q ∧ ¬ ρ.both n p q)
  left : ∀ l r n p, R l r → ρ.deep l r → Has bl l n p → (∀ q, ¬ Has br r n q) → ¬ ρ.left n p
  right : ∀ l r n q, R l r → ρ.deep l r → Has br r n q → (∀ p, ¬ Has bl l n p) → ¬ ρ.right n q

/-- Two items agree in everything that matters. -/
def Agree (ρ : Rules) (bl br : Bag) (l r : Pair) : Prop := ∃ R, Simulation ρ bl br R ∧ R l r

/-- Two slices are compared item by item; two empty slices as if each was a missing item. -/
def Start (xs : List Item) (ls : Item) (ys : List Item) (rs : Item) (i : Nat) (l r : Pair) : Prop :=
  (∃ x y, xs[i]? = some x ∧ ys[i]? = some y ∧ l = (x, ls) ∧ r = (y, rs)) ∨
    (xs = [] ∧ ys = [] ∧ i = 0 ∧ l = (.missing, ls) ∧ r = (.missing, rs))

/-- Two items are reached on the same path through alike items. -/
inductive Together (ρ : Rules) (bl br : Bag) (start : Nat → Pair → Pair → Prop) :
    Pair → Pair → Prop where
  | start {i : Nat} {l r : Pair} : start i l r → ρ.alike l r → Together ρ bl br start l r
  | part {l r p q : Pair} {n : Label} : Together ρ bl br start l r → ρ.deep l r → Has bl l n p →
      Has br r n q → ρ.alike p q → Together ρ bl br start p q

/-- A difference: in the slices, or between the parts of two items. -/
inductive Difference where
  | slice (i : Nat) (l r : Pair)
  | left (place : Pair × Pair) (n : Label) (p : Pair)
  | right (place : Pair × Pair) (n : Label) (q : Pair)
  | both (place : Pair × Pair) (n : Label) (p q : Pair)
deriving DecidableEq, Repr

/-- The differences that matter. -/
inductive Matters (ρ : Rules) (bl br : Bag) (start : Nat → Pair → Pair → Prop) : Difference → Prop where
  | slice {i : Nat} {l r : Pair} : start i l r → ¬ ρ.alike l r →
      Matters ρ bl br start (.slice i l r)
  | left {l r p : Pair} {n : Label} : Together ρ bl br start l r → ρ.deep l r → Has bl l n p →
      (∀ q, ¬ Has br r n q) → ρ.left n p → Matters ρ bl br start (.left (l, r) n p)
  | right {l r q : Pair} {n : Label} : Together ρ bl br start l r → ρ.deep l r → Has br r n q →
      (∀ p, ¬ Has bl l n p) → ρ.right n q → Matters ρ bl br start (.right (l, r) n q)
  | both {l r p q : Pair} {n : Label} : Together ρ bl br start l r → ρ.deep l r → Has bl l n p →
      Has br r n q → ¬ ρ.alike p q → ρ.both n p q → Matters ρ bl br start (.both (l, r) n p q)

/-- The part that a key stands for. -/
def labelOf (k : TKey) : Label :=
  match k.type with
  | .listItem => .item k.index
  | .listNoItems => .noItems
  | .dictKey => .key k.value
  | .dictNoKeys => .noKeys
  | .dictValue => .value k.value
  | .dictNoValues => .noValues
  | .attr => .attr k.name
  | .schemaAttr => .schemaAttr k.name

/-- The difference that was recorded. -/
def see : Diff → Difference
  | .slice i l r => .slice i l r
  | .lhsOnly place k p => .left place (labelOf k) p
  | .rhsOnly place k q => .right place (labelOf k) q
  | .mismatch place k p q => .both place (labelOf k) p q

/-! ### Equivalence -/

/-- Not a number. -/
def IsNan (x : Item) : Prop :=
  (∃ b : BitVec 32, x = .float32 b ∧ b.extractLsb' 23 8 = 255 ∧ b.extractLsb' 0 23 ≠ 0) ∨
  (∃ b : BitVec 64, x = .float64 b ∧ b.extractLsb' 52 11 = 2047 ∧ b.extractLsb' 0 52 ≠ 0)

/-- An infinite number. -/
def IsInf (x : Item) (neg : Bool) : Prop :=
  (∃ b : BitVec 32, x = .float32 b ∧ b.msb = neg ∧ b.extractLsb' 23 8 = 255 ∧ b.extractLsb' 0 23 = 0) ∨
  (∃ b : BitVec 64, x = .float64 b ∧ b.msb = neg ∧ b.extractLsb' 52 11 = 2047 ∧ b.extractLsb' 0 52 = 0)

/-- A floating point number with the value `n · 2^-1074`, or the negative of it. -/
def IsFloat (x : Item) (neg : Bool) (n : Nat) : Prop :=
  (∃ b : BitVec 32, x = .float32 b ∧ b.msb = neg ∧
    ((b.extractLsb' 23 8 = 0 ∧ n = (b.extractLsb' 0 23).toNat * 2 ^ 925) ∨
      (b.extractLsb' 23 8 ≠ 0 ∧ b.extractLsb' 23 8 ≠ 255 ∧
        n = ((b.extractLsb' 0 23).toNat + 2 ^ 23) * 2 ^ ((b.extractLsb' 23 8).toNat - 1 + 925)))) ∨
  (∃ b : BitVec 64, x = .float64 b ∧ b.msb = neg ∧
    ((b.extractLsb' 52 11 = 0 ∧ n = (b.extractLsb' 0 52).toNat) ∨
      (b.extractLsb' 52 11 ≠ 0 ∧ b.extractLsb' 52 11 ≠ 2047 ∧
        n = ((b.extractLsb' 0 52).toNat + 2 ^ 52) * 2 ^ ((b.extractLsb' 52 11).toNat - 1))))

/-- An integer of type INT32 or INT64. -/
def IsInt (x : Item) (i : Int) : Prop :=
  (∃ v : BitVec 32, x = .int32 v ∧ v.toInt = i) ∨ (∃ v : BitVec 64, x = .int64 v ∧ v.toInt = i)

/-- Two items are the same value: they are equal, or equal integers, or equal floating point
numbers (of any sign, if zero), or both not a number. -/
def SameValue (x y : Item) : Prop :=
  x = y ∨ (∃ i, IsInt x i ∧ IsInt y i) ∨
    (∃ s t n, IsFloat x s n ∧ IsFloat y t n ∧ (s = t ∨ n = 0)) ∨
    (∃ s, IsInf x s ∧ IsInf y s) ∨ (IsNan x ∧ IsNan y)

/-- Two ids are ids of things of the same kind. -/
def SameKind (o o' : ObjectId) : Prop :=
  (o.isList = o'.isList) ∧ (o.isDict = o'.isDict) ∧ (o.isSchema = o'.isSchema)

/-- Two items look the same from outside. -/
def Alike (P : Params) (l r : Pair) : Prop :=
  (P.schemas = true → l.2 = r.2) ∧
  ((∃ o o', l.1 = .object o ∧ r.1 = .object o' ∧ P.ids = false ∧ SameKind o o' ∧
      (l.2 = .dtype 10 → r.2 = .dtype 10 ∧ o = o')) ∨
    (((∀ o, l.1 ≠ .object o) ∨ (∀ o, r.1 ≠ .object o) ∨ P.ids = true) ∧ SameValue l.1 r.1))

/-- The parts whose names are positions in a list or keys of a dict. -/
def IsElement : Label → Prop
  | .item _ => True
  | .value _ => True
  | _ => False

/-- The rules of equivalence. -/
def equivalence (P : Params) : Rules where
  alike := Alike P
  deep := fun _ _ => True
  left := fun n p => (P.partly = true → IsElement n) ∧ (p.1 ≠ .missing ∨ P.schemas = true)
  right := fun _ q => q.1 ≠ .missing ∨ P.schemas = true
  both := fun n _ q => P.partly = true → IsElement n ∨ q.1 ≠ .missing

/-- Two items are equivalent. -/
def Equivalent (P : Params) (bl br : Bag) (l r : Pair) : Prop := Agree (equivalence P) bl br l r

/-! ### Compatible schemas -/

/-- A schema: the id of a schema or a dtype. -/
def IsSchema (x : Item) : Prop := (∃ o, x = .object o ∧ o.isSchema = true) ∨ ∃ n, x = .dtype n

/-- The rules for schemas: `castable` says which schemas may be cast to which; nothing is compared
below OBJECT; attributes may be removed or added if that is allowed, and what is not a schema
(the name of a schema, its metadata) does not matter. -/
def compatibility (P : SchemaParams) (castable : Item → Item → Bool) : Rules where
  alike := fun l r => IsSchema l.1 ∧ IsSchema r.1 ∧ castable l.1 r.1 = true
  deep := fun l r => l.1 ≠ .dtype 11 ∧ r.1 ≠ .dtype 11
  left := fun _ p => P.allowRemoving = false ∧ IsSchema p.1
  right := fun _ q => P.allowNew = false ∧ IsSchema q.1
  both := fun _ p q => (IsSchema p.1 ∨ IsSchema q.1) ∧ ¬ (P.allowRemoving = true ∧ q.1 = .missing) ∧
    ¬ (P.allowNew = true ∧ p.1 = .missing)

/-- A schema can be cast to another one. -/
def Compatible (P : SchemaParams) (castable : Item → Item → Bool) (bl br : Bag) (x y : Item) : Prop :=
  Agree (compatibility P castable) bl br (x, .dtype 12) (y, .dtype 12)

/-- The name of a schema and its metadata are not schemas. -/
def NamesOk (b : Bag) : Prop := ∀ S n y, (n, y) ∈ b.schemaAttrs S → AboutSchema n → ¬ IsSchema y

/-- INT64, INT32, FLOAT32 and FLOAT64. -/
def IsNumber (n : Fin 14) : Prop := n = 0 ∨ n = 1 ∨ n = 2 ∨ n = 3

/-- Which schemas may be cast to which, as far as one can tell without the data: entities to
entities and to ITEMID; OBJECT and NONE to anything but OBJECT; everything to NONE; dtypes
to themselves; numbers, booleans and texts to numbers; numbers to booleans; booleans to
masks; everything that can be printed to texts; schemas to ITEMID. -/
inductive MayCast : Item → Item → Prop where
  | entity {o o' : ObjectId} : MayCast (.object o) (.object o')
  | itemId {o : ObjectId} : MayCast (.object o) (.dtype 10)
  | ofObject {o : ObjectId} : MayCast (.dtype 11) (.object o)
  | ofNone {o : ObjectId} : MayCast (.dtype 13) (.object o)
  | entityNone {o : ObjectId} : MayCast (.object o) (.dtype 13)
  | toNone {n : Fin 14} : MayCast (.dtype n) (.dtype 13)
  | objectTo {n : Fin 14} : n ≠ 11 → n ≠ 9 → MayCast (.dtype 11) (.dtype n)
  | noneTo {n : Fin 14} : n ≠ 11 → n ≠ 9 → MayCast (.dtype 13) (.dtype n)
  | self {n : Fin 14} : n ≠ 11 → n ≠ 9 → MayCast (.dtype n) (.dtype n)
  | number {n m : Fin 14} : (IsNumber n ∨ n = 4 ∨ n = 6 ∨ n = 7) → IsNumber m →
      MayCast (.dtype n) (.dtype m)
  | bool {n : Fin 14} : IsNumber n → MayCast (.dtype n) (.dtype 4)
  | mask : MayCast (.dtype 4) (.dtype 5)
  | text {n : Fin 14} : (IsNumber n ∨ n = 4 ∨ n = 5 ∨ n = 6) → MayCast (.dtype n) (.dtype 7)
  | schemaId : MayCast (.dtype 12) (.dtype 10)

end Verif.Compare
