import Verif.SchemaHelper.Model
import Verif.Path.Spec

/-! Specification vocabulary for C17, C18, C50 and C51. -/

namespace Verif.SchemaHelper

open Verif.Path

/-- An action leads from a schema to a subschema: the items of a list, the keys and values
of a dict, an attribute of an entity. -/
inductive Step (b : Store) : Item → Action → Item → Prop
  | item {id i} : (b.get id).kind = .list i → Step b (.struct id) .listExplode i
  | key {id k v} : (b.get id).kind = .dict k v → Step b (.struct id) .dictGetKeys k
  | value {id k v} : (b.get id).kind = .dict k v → Step b (.struct id) .dictGetValues v
  | attr {id attrs n i} : (b.get id).kind = .entity attrs → (n, i) ∈ attrs →
      Step b (.struct id) (.getAttr n) i

/-- A path leads from a schema to a subschema. -/
inductive Reaches (b : Store) : Item → List Action → Item → Prop
  | nil {s} : Reaches b s [] s
  | cons {s a s' p s''} : Step b s a s' → Reaches b s' p s'' → Reaches b s (a :: p) s''

/-- An attribute has one schema. -/
def AttrsOnce (b : Store) : Prop :=
  ∀ id attrs, (b.get id).kind = .entity attrs → (attrs.map (·.1)).Nodup

/-- The places of a schema at which data is found: every schema with an item id is one, and
of the others every occurrence. -/
inductive Node where
  | struct (id : Id)
  | root (d : Dtype)
  | leaf (parent : Id) (a : Action) (d : Dtype)
  deriving Repr, DecidableEq

/-- The place to which a path leads. -/
inductive NodeAt (b : Store) (s : Item) : List Action → Node → Prop
  | struct {p id} : Reaches b s p (.struct id) → NodeAt b s p (.struct id)
  | root {d} : s = .dtype d → NodeAt b s [] (.root d)
  | leaf {p id a d} : Reaches b s p (.struct id) → Step b (.struct id) a (.dtype d) →
      NodeAt b s (p ++ [a]) (.leaf id a d)

/-- Two paths lead to the same place. -/
def SamePlace (b : Store) (s : Item) (p q : List Action) : Prop :=
  ∃ n, NodeAt b s p n ∧ NodeAt b s q n

/-- The schemas that can be managed: no subschema is `OBJECT` or `SCHEMA`. -/
def NoOpaque (b : Store) (s : Item) : Prop :=
  ∀ p, ¬ Reaches b s p (.dtype .object) ∧ ¬ Reaches b s p (.dtype .schema)

/-- No subschema has metadata that is not primitive. -/
def PlainMetadata (b : Store) (s : Item) : Prop :=
  ∀ p id m n v, Reaches b s p (.struct id) → (b.get id).metadata = some m → (n, v) ∈ m →
    ∃ x, v = .primitive x

/-- The places that have to be loaded for a request: those on a path that ends at a
requested place, or, if the descendants are requested, at a place below. -/
def Needed (b : Store) (s : Item) (populate withDescendants : List (List Action))
    (q : List Action) : Prop :=
  ∃ r i, Reaches b s (q ++ r) i ∧
    ((∃ p ∈ populate, SamePlace b s (q ++ r) p) ∨
      ∃ p ∈ withDescendants, ∃ r' i', Reaches b s (p ++ r') i' ∧ SamePlace b s (q ++ r) (p ++ r'))

/-- What the schema says: names, metadata and subschemas. -/
inductive Fact (b : Store) : Id → Key → Val → Prop
  | name {id n} : (b.get id).name = some n → Fact b id .schemaName (.text n)
  | metadata {id m} : (b.get id).metadata = some m → Fact b id .schemaMetadata (.metadata m)
  | items {id i} : Step b (.struct id) .listExplode i → Fact b id .items (.item i)
  | keys {id i} : Step b (.struct id) .dictGetKeys i → Fact b id .keys (.item i)
  | values {id i} : Step b (.struct id) .dictGetValues i → Fact b id .values (.item i)
  | attr {id n i} : Step b (.struct id) (.getAttr n) i → Fact b id (.attr n) (.item i)

/-- What a bag says. -/
def Says (bag : Bag) (id : Id) (k : Key) (v : Val) : Prop := bag.lookup (id, k) = some v

/-- The attribute under which the subschema of an action is found. -/
inductive KeyOf : Action → Key → Prop
  | items : KeyOf .listExplode .items
  | keys : KeyOf .dictGetKeys .keys
  | values : KeyOf .dictGetValues .values
  | attr {n} : KeyOf (.getAttr n) (.attr n)

/-- A path leads from a schema to a subschema according to a bag. -/
inductive BagReaches (bag : Bag) : Item → List Action → Item → Prop
  | nil {s} : BagReaches bag s [] s
  | cons {id a k s' p s''} : KeyOf a k → Says bag id k (.item s') → BagReaches bag s' p s'' →
      BagReaches bag (.struct id) (a :: p) s''

end Verif.SchemaHelper
