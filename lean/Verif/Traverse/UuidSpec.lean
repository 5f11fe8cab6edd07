import Verif.Traverse.Search

/-!
Specification of `kd.deep_uuid`: the id that an item gets, computed from what the item
contains and not from the ids in the bag.
-/

namespace Verif.Traverse

open Verif.ObjectId
open Verif.Uuid

/-- What stands for a reference of an item to itself. -/
def selfText : Item := .text (named "__self_reference_placeholder__")

/-- The item refers to itself: the attribute is an id that is not just meant as an id. -/
def IsSelf (x : ObjectId) (p : Pair) : Prop := p.1 = .object x ∧ p.2 ≠ .dtype 10

/-- The fields of an item or of a schema: `at_ n p` says that the attribute `n` is `p`. -/
def FieldsOf (at_ : Name → Pair → Prop) (vals : Name → Item) (fields : List (Name × Item)) : Prop :=
  (fields.map (·.1)).Nodup ∧ ∀ n v, (n, v) ∈ fields ↔ v = vals n ∧ ∃ p, at_ n p

/-- The attributes of an item with an entity schema. -/
def EntityAttr (b : Bag) (x S : ObjectId) (n : Name) (p : Pair) : Prop :=
  ∃ t, (n, t) ∈ b.schemaAttrs S ∧ ¬ AboutSchema n ∧ p = (b.attr x n, t)

/-- The attributes of a schema. -/
def SchemaAttr (b : Bag) (x : ObjectId) (n : Name) (p : Pair) : Prop :=
  ∃ y k, (n, y) ∈ b.schemaAttrs x ∧ AttrKind n k ∧ p = (y, k)

/-- `Value H seed b (y, t) v`: an item `y` with the schema `t` counts as the value `v`. Values
that are not ids count as they are, and ids with the schema ITEMID too; the other ids count as
the uuid made from the values of what they contain. -/
inductive Value {S : Type} (H : HashFn S) (seed : Bytes) (b : Bag) : Pair → Item → Prop where
  | leaf {y t : Item} : (∀ o, y ≠ .object o) → Value H seed b (y, t) y
  | itemId {o : ObjectId} : Value H seed b (.object o, .dtype 10) (.object o)
  | object {x T : ObjectId} {v : Item} : b.attr x (named "__schema__") = .object T →
      Value H seed b (.object x, .object T) v → Value H seed b (.object x, .dtype 11) v
  | noFollow {x T : ObjectId} : T.isNoFollowSchema = true →
      Value H seed b (.object x, .object T) (.object (uuidFromFields H seed [] .default))
  | list {x T : ObjectId} {t : Item} {vals : List Item} : T.isNoFollowSchema = false →
      ListSchema b T t → vals.length = (b.list x).length →
      (∀ (i : Nat) y v, (b.list x)[i]? = some y → vals[i]? = some v → Value H seed b (y, t) v) →
      Value H seed b (.object x, .object T) (.object (listUuid H seed vals []))
  | dict {x T : ObjectId} {k t : Item} {vals : List (Item × Item)} :
      T.isNoFollowSchema = false → DictSchema b T k t → vals.length = (b.dict x).length →
      (∀ (i : Nat) y v, (b.dict x)[i]? = some y → vals[i]? = some v → Value H seed b (y.1, k) v.1) →
      (∀ (i : Nat) y v, (b.dict x)[i]? = some y → vals[i]? = some v → Value H seed b (y.2, t) v.2) →
      Value H seed b (.object x, .object T) (.object (dictUuid H seed vals []))
  | entity {x T : ObjectId} {vals : Name → Item} {fields : List (Name × Item)} :
      T.isNoFollowSchema = false → PlainSchema b T →
      (∀ n p, EntityAttr b x T n p → IsSelf x p → vals n = selfText) →
      (∀ n p, EntityAttr b x T n p → ¬ IsSelf x p → Value H seed b p (vals n)) →
      FieldsOf (EntityAttr b x T) vals fields →
      Value H seed b (.object x, .object T) (.object (uuidFromFields H seed fields .default))
  | noFollowSchema {x : ObjectId} : x.isNoFollowSchema = true →
      Value H seed b (.object x, .dtype 12) (.object (schemaUuid H seed []))
  | schema {x : ObjectId} {vals : Name → Item} {fields : List (Name × Item)} :
      x.isNoFollowSchema = false →
      (∀ n p, SchemaAttr b x n p → IsSelf x p → vals n = selfText) →
      (∀ n p, SchemaAttr b x n p → ¬ IsSelf x p → Value H seed b p (vals n)) →
      FieldsOf (SchemaAttr b x) vals fields →
      Value H seed b (.object x, .dtype 12) (.object (schemaUuid H seed fields))

/-- What can be reached from a slice. -/
def Reachable (b : Bag) (ds : List Item) (s : Item) (p : Pair) : Prop :=
  ∃ r, Root everything ds s r ∧ Reach (Edge b everything) r p

/-- Every id is used with one schema, and objects have schemas of their own. ITEMIDs do not
count: what they refer to is not looked at. -/
structure Coherent (b : Bag) (ds : List Item) (s : Item) : Prop where
  one : ∀ x s1 s2 e1 e2, Reachable b ds s (.object x, s1) → Reachable b ds s (.object x, s2) →
    s1 ≠ .dtype 10 → s2 ≠ .dtype 10 → Own b x s1 e1 → Own b x s2 e2 → e1 = e2
  own : ∀ x e, Reachable b ds s (.object x, .dtype 11) → Own b x (.dtype 11) e → ∃ T, e = .object T

/-- A reference to the id comes from something that can be reached from the id. -/
def OnCycle (b : Bag) (x : ObjectId) : Prop :=
  ∃ s p, Edge b everything p (.object x, s) ∧ Reach (Edge b everything) (.object x, s) p

/-- No attribute of an item on a cycle counts as the id of the item itself. (It can only do so
when it is an ITEMID, or when the id of the item is the uuid of its attribute.) -/
def NoClash {S : Type} (H : HashFn S) (seed : Bytes) (b : Bag) (ds : List Item) (s : Item) : Prop :=
  ∀ x, OnCycle b x → ∀ s', Reachable b ds s (.object x, s') → ∀ n p v,
    ((∃ T, Own b x s' (.object T) ∧ T.isNoFollowSchema = false ∧ PlainSchema b T ∧
        EntityAttr b x T n p) ∨
      (s' = .dtype 12 ∧ x.isNoFollowSchema = false ∧ SchemaAttr b x n p)) →
    ¬ IsSelf x p → Value H seed b p v → v ≠ .object x

end Verif.Traverse
