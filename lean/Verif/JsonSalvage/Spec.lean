/-
What `kd.json_stream.salvage` should write.  JSON texts are sequences of characters here
(`Text`, `Doc` of `Verif.JsonStream.Spec` for code points in the place of bytes), the streams have their
UTF-8.  Nothing here depends on how the processor works.
-/
import Verif.JsonStream.Spec

namespace Verif.JsonSalvage

open Verif.JsonStream

/-- The bytes of a text. -/
def bytesOf (t : List Char) : Bytes := t.flatMap charBytes

/-- The code points of a text. -/
def codes (t : List Char) : List Nat := t.map Char.toNat

/-- Two bytes next to each other. -/
def HasPair (P : Nat → Nat → Prop) (t : List Nat) : Prop := ∃ a x y b, t = a ++ x :: y :: b ∧ P x y

/-! ### Texts that may have defects -/

/-- What makes an output differ from JSON. -/
structure Defects where
  /-- `NaN`, `Infinity` and `-Infinity` are values. -/
  nan : Prop
  /-- Numbers are keys, without a comma before them. -/
  numberKey : Prop
  /-- Control characters are in strings, after an escaped backslash. -/
  control : Prop
  /-- A member is a key only, or the text `null` follows an empty string. -/
  unfinished : Prop

inductive Kind where
  | value
  | elems
  | key
  | member
  | members
deriving DecidableEq, Repr

inductive LooseBody (control : Prop) : List Nat → Prop
  | nil : LooseBody control []
  | plain {c t} : Plain c → LooseBody control t → LooseBody control (c :: t)
  | simple {c r t} : (c, r) ∈ simpleEscapes → LooseBody control t → LooseBody control (ch '\\' :: c :: t)
  | unicode {h v t} : Hex4 h v → LooseBody control t → LooseBody control (ch '\\' :: ch 'u' :: (h ++ t))
  | control {c t} : control → c < 0x20 → LooseBody control t →
      LooseBody control (ch '\\' :: ch '\\' :: c :: t)

def nanText : List Nat := [ch 'N', ch 'a', ch 'N']

def infinityText : List Nat := [ch 'I', ch 'n', ch 'f', ch 'i', ch 'n', ch 'i', ch 't', ch 'y']

/-- JSON texts without whitespace, with defects. -/
inductive Loose (D : Defects) : Kind → List Nat → Prop
  | null : Loose D .value nullText
  | bool (b) : Loose D .value (boolText b)
  | num {t} : IsNumber t → Loose D .value t
  | str {b} : LooseBody D.control b → Loose D .value (quoted b)
  | nan : D.nan → Loose D .value nanText
  | infinity : D.nan → Loose D .value infinityText
  | minusInfinity : D.nan → Loose D .value (ch '-' :: infinityText)
  | nullAfterString : D.unfinished → Loose D .value (quoted [] ++ nullText)
  | arrNil : Loose D .value [ch '[', ch ']']
  | arr {t} : Loose D .elems t → Loose D .value (ch '[' :: (t ++ [ch ']']))
  | objNil : Loose D .value [ch '{', ch '}']
  | obj {t} : Loose D .members t → Loose D .value (ch '{' :: (t ++ [ch '}']))
  | elem {t} : Loose D .value t → Loose D .elems t
  | elems {r t} : Loose D .elems r → Loose D .value t → Loose D .elems (r ++ ch ',' :: t)
  | key {b} : LooseBody D.control b → Loose D .key (quoted b)
  | numberKey {k} : D.numberKey → IsNumber k → Loose D .key k
  | member {k t} : Loose D .key k → Loose D .value t → Loose D .member (k ++ ch ':' :: t)
  | keyOnly : D.unfinished → Loose D .member (quoted [])
  | one {m} : Loose D .member m → Loose D .members m
  | members {r m} : Loose D .members r → Loose D .member m → Loose D .members (r ++ ch ',' :: m)
  | noComma {r m} : D.numberKey → Loose D .members r → Loose D .member m → Loose D .members (r ++ m)

/-- Values on lines of their own; the first line may be empty. -/
inductive LooseDoc (D : Defects) : List Nat → Prop
  | nil : LooseDoc D []
  | one {t} : Loose D .value t → LooseDoc D t
  | next {r t} : LooseDoc D r → Loose D .value t → LooseDoc D (r ++ nl :: t)

/-- The defects that the bytes of an input may cause. -/
def defectsOf (allowNan : Bool) (t : Bytes) : Defects :=
  { nan := allowNan = true
    numberKey := HasPair (fun x y => (x = ch '-' ∨ x = ch '+') ∧ ((48 ≤ y ∧ y ≤ 57) ∨ y = ch '.')) t
    control := HasPair (fun x y => x = ch '\\' ∧ y < 0x20) t
    unfinished := HasPair (fun x y => x = ch '`' ∧ y = ch '`') t }

/-- No defects. -/
def noDefects : Defects := { nan := False, numberKey := False, control := False, unfinished := False }

end Verif.JsonSalvage
