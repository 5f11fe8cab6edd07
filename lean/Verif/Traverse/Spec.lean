import Verif.Traverse.Dfs

/-!
Specification of the walk over the data of a bag: which items are referred to directly by an
item with a schema, stated with the contents of the bag only.
-/

namespace Verif.Traverse

open Verif.ObjectId
open Verif.Uuid

/-- The bytes of an attribute name. -/
def named (s : String) : Name := s.toUTF8.data.toList

/-- The dtypes of values that are not ids and not dtypes: INT64 to EXPR. -/
def Primitive (t : Item) : Prop := ∃ n : Fin 14, t = .dtype n ∧ n ≤ 8

/-- Two attributes that say something about a schema and not about its items. -/
def AboutSchema (n : Name) : Prop := n = named "__schema_name__" ∨ n = named "__schema_metadata__"

/-- The schema of a list of items with schema `t`. -/
def ListSchema (b : Bag) (S : ObjectId) (t : Item) : Prop :=
  b.schemaAttrs S = [(named "__items__", t)]

/-- The schema of a dict. -/
def DictSchema (b : Bag) (S : ObjectId) (k v : Item) : Prop :=
  b.schemaAttrs S = [(named "__keys__", k), (named "__values__", v)] ∨
    b.schemaAttrs S = [(named "__values__", v), (named "__keys__", k)]

/-- The schema of an entity with attributes. -/
def PlainSchema (b : Bag) (S : ObjectId) : Prop :=
  ∀ t, (named "__items__", t) ∉ b.schemaAttrs S ∧ (named "__keys__", t) ∉ b.schemaAttrs S ∧
    (named "__values__", t) ∉ b.schemaAttrs S

/-- The schema an item really has: an object keeps its own. -/
inductive Own (b : Bag) (x : ObjectId) : Item → Item → Prop where
  | object {e : Item} : b.attr x (named "__schema__") = e → e ≠ .missing → Own b x (.dtype 11) e
  | other {s : Item} : s ≠ .dtype 11 → Own b x s s

/-- What an attribute of a schema is: the name is a string, the metadata an object, all the
others are schemas. -/
inductive AttrKind : Name → Item → Prop where
  | name : AttrKind (named "__schema_name__") (.dtype 7)
  | metadata : AttrKind (named "__schema_metadata__") (.dtype 11)
  | schema {n : Name} : ¬ AboutSchema n → AttrKind n (.dtype 12)

/-- The item `x`, whose own schema is `e`, refers directly to an id with a schema. -/
inductive Ref (b : Bag) (x : ObjectId) : Item → Key → Pair → Prop where
  | schema {S : ObjectId} : Ref b x (.object S) .schema (.object S, .dtype 12)
  | listItem {S y : ObjectId} {t : Item} {i : Nat} : S.isNoFollowSchema = false →
      ListSchema b S t → ¬ Primitive t → (b.list x)[i]? = some (.object y) →
      Ref b x (.object S) (.listItem i) (.object y, t)
  | dictKey {S y : ObjectId} {k v z : Item} {i : Nat} : S.isNoFollowSchema = false →
      DictSchema b S k v → ¬ Primitive k → (b.dict x)[i]? = some (.object y, z) →
      Ref b x (.object S) (.dictKey i (.object y)) (.object y, k)
  | dictValue {S y : ObjectId} {k v z : Item} {i : Nat} : S.isNoFollowSchema = false →
      DictSchema b S k v → ¬ Primitive v → (b.dict x)[i]? = some (z, .object y) →
      Ref b x (.object S) (.dictValue i z) (.object y, v)
  | attr {S y : ObjectId} {n : Name} {t : Item} : S.isNoFollowSchema = false →
      PlainSchema b S → (n, t) ∈ b.schemaAttrs S → ¬ AboutSchema n → b.attr x n = .object y →
      Ref b x (.object S) (.attr n) (.object y, t)
  | schemaAttr {y : ObjectId} {n : Name} {k : Item} : x.isNoFollowSchema = false →
      (n, .object y) ∈ b.schemaAttrs x → AttrKind n k →
      Ref b x (.dtype 12) (.schemaAttr n) (.object y, k)

/-- The references that a visitor wants to follow. -/
def Edge (b : Bag) (want : Pair → Option Key → Pair → Bool) (p q : Pair) : Prop :=
  ∃ x e k, p.1 = .object x ∧ Own b x p.2 e ∧ Ref b x e k q ∧ want (p.1, e) (some k) q = true

/-- The ids in a slice with their schema, and the schema itself. -/
def Root (want : Pair → Option Key → Pair → Bool) (ds : List Item) (s : Item) (p : Pair) : Prop :=
  (∃ o, s = .object o ∧ p = (s, .dtype 12) ∧ want (.missing, .missing) none p = true) ∨
    ∃ i o, ds[i]? = some (.object o) ∧ p = (.object o, s) ∧
      want (.missing, .missing) (some (.sliceItem i)) p = true

/-- In a bag the attributes of a schema have different names. -/
def Bag.Ok (b : Bag) : Prop := ∀ S, ((b.schemaAttrs S).map (·.1)).Nodup

/-- What a visitor answers does not depend on its state. -/
def Decides {V : Type} (w : Visitor V) (want : Pair → Option Key → Pair → Bool) : Prop :=
  ∀ v src k p r v', w.previsit v src k p = .ok (r, v') → r = want src k p

/-- A visitor that follows everything. -/
def everything : Pair → Option Key → Pair → Bool := fun _ _ _ => true

end Verif.Traverse
