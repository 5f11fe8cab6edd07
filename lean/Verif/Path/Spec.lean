import Verif.Path.Model

/-! Specification vocabulary for C05-C07. -/
namespace Verif.Path

/-- What is assumed about `str.isidentifier` and base64. -/
structure TextLaws (t : Text) : Prop where
  ident_ne_nil : ∀ s, t.isIdent s → s ≠ []
  ident_chars : ∀ s, t.isIdent s → ∀ c ∈ s, c ≠ '.' ∧ c ≠ '[' ∧ c ≠ '('
  dec_enc : ∀ s, t.dec (t.enc s) = some s
  enc_chars : ∀ s, ∀ c ∈ t.enc s, c ≠ '"'

/-- The documented spellings of an action (docstring of `parse_from_string`,
lines 377-390). -/
inductive Spelling (t : Text) : Action → List Char → Prop
  | keys : Spelling t .dictGetKeys ['.', 'g', 'e', 't', '_', 'k', 'e', 'y', 's', '(', ')']
  | values : Spelling t .dictGetValues
      ['.', 'g', 'e', 't', '_', 'v', 'a', 'l', 'u', 'e', 's', '(', ')']
  | explode : Spelling t .listExplode ['[', ':', ']']
  | dot {name} : t.isIdent name → Spelling t (.getAttr name) ('.' :: name)
  | quoted {name b q} : q = '"' ∨ q = '\'' → q ∉ b → t.dec b = some name →
      Spelling t (.getAttr name)
        (['.', 'g', 'e', 't', '_', 'a', 't', 't', 'r', '(', q] ++ b ++ [q, ')'])

/-- A string that is a concatenation of spellings of the actions of a path. -/
inductive Spells (t : Text) : List Action → List Char → Prop
  | nil : Spells t [] []
  | cons {a p s s'} : Spelling t a s → Spells t p s' → Spells t (a :: p) (s ++ s')

/-- A path is valid for a schema if its actions can be applied one after the
other. -/
inductive Valid {S : Type} (kind : S → Kind S) : S → List Action → Prop
  | nil {s} : Valid kind s []
  | cons {s s' a p} : subschema kind s a = some s' → Valid kind s' p → Valid kind s (a :: p)

/-- `kd.dir` lists every attribute once. -/
def AttrsDistinct {S : Type} (kind : S → Kind S) : Prop :=
  ∀ s attrs, kind s = .entity attrs → (attrs.map (·.1)).Nodup

end Verif.Path
