import Verif.Schema.Model

/-! Specification for C28, C29: the graph of type promotion of `docs/deep_dive/schema.md`. -/

namespace Verif.Schema

open Verif.ObjectId Verif.Uuid

/-- The names of the dtypes. -/
inductive Name where
  | int64 | int32 | float32 | float64 | bool | mask | bytes | string | expr
  | itemid | object | schema | none
deriving DecidableEq, Repr

/-- Their numbers (dtype.h:79-113). -/
def Name.id : Name → Fin 14
  | .int64 => 0
  | .int32 => 1
  | .float32 => 2
  | .float64 => 3
  | .bool => 4
  | .mask => 5
  | .bytes => 6
  | .string => 7
  | .expr => 8
  | .itemid => 10
  | .object => 11
  | .schema => 12
  | .none => 13

/-- A schema: a dtype or the id of a struct schema. -/
inductive Schema where
  | dtype (n : Name)
  | struct (o : ObjectId) (h : o.isSchema = true)

/-- The data item that holds a schema. -/
def Schema.item : Schema → Item
  | .dtype n => .dtype n.id
  | .struct o _ => .object o

/-- A schema or a missing item. -/
def optItem : Option Schema → Item
  | .none => .missing
  | some s => s.item

/-- The edges of the graph of the documentation. -/
inductive Edge : Schema → Schema → Prop where
  | none_struct (o : ObjectId) (h : o.isSchema = true) : Edge (.dtype .none) (.struct o h)
  | none_itemid : Edge (.dtype .none) (.dtype .itemid)
  | none_schema : Edge (.dtype .none) (.dtype .schema)
  | none_int32 : Edge (.dtype .none) (.dtype .int32)
  | none_mask : Edge (.dtype .none) (.dtype .mask)
  | none_bool : Edge (.dtype .none) (.dtype .bool)
  | none_bytes : Edge (.dtype .none) (.dtype .bytes)
  | none_string : Edge (.dtype .none) (.dtype .string)
  | none_expr : Edge (.dtype .none) (.dtype .expr)
  | int32_int64 : Edge (.dtype .int32) (.dtype .int64)
  | int64_float32 : Edge (.dtype .int64) (.dtype .float32)
  | float32_float64 : Edge (.dtype .float32) (.dtype .float64)
  | float64_object : Edge (.dtype .float64) (.dtype .object)
  | mask_object : Edge (.dtype .mask) (.dtype .object)
  | bool_object : Edge (.dtype .bool) (.dtype .object)
  | bytes_object : Edge (.dtype .bytes) (.dtype .object)
  | string_object : Edge (.dtype .string) (.dtype .object)
  | expr_object : Edge (.dtype .expr) (.dtype .object)

/-- There is a path in the graph. -/
inductive LE : Schema → Schema → Prop where
  | refl (a : Schema) : LE a a
  | step {a b c : Schema} : Edge a b → LE b c → LE a c

/-- `u` is above all of `l`. -/
def Above (l : List Schema) (u : Schema) : Prop := ∀ a ∈ l, LE a u

/-- `s` is the supremum of `l`. -/
def IsSup (l : List Schema) (s : Schema) : Prop := Above l s ∧ ∀ u, Above l u → LE s u

end Verif.Schema
