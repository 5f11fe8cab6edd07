/-
JSON texts and what the operators of `kd.json_stream` should make of them.  Nothing
here depends on how the processors work.
-/
import Verif.JsonStream.Model

namespace Verif.JsonStream

/-! ### JSON values and their texts -/

/-- JSON values.  Numbers are kept as they are written, strings are kept as what is
written between the quotes. -/
inductive Json where
  | null
  | bool (b : Bool)
  | num (text : Bytes)
  | str (body : Bytes)
  | arr (l : List Json)
  | obj (l : List (Bytes × Json))

def Digits (t : Bytes) : Prop := t ≠ [] ∧ ∀ c ∈ t, 48 ≤ c ∧ c ≤ 57

/-- The numbers of RFC 8259. -/
def IsNumber (t : Bytes) : Prop :=
  ∃ sign int frac exp : Bytes, t = sign ++ int ++ frac ++ exp ∧
    (sign = [] ∨ sign = [ch '-']) ∧
    (int = [ch '0'] ∨ (Digits int ∧ int.head? ≠ some (ch '0'))) ∧
    (frac = [] ∨ ∃ ds, Digits ds ∧ frac = ch '.' :: ds) ∧
    (exp = [] ∨ ∃ e s ds, (e = ch 'e' ∨ e = ch 'E') ∧ (s = [] ∨ s = [ch '+'] ∨ s = [ch '-']) ∧
      Digits ds ∧ exp = e :: s ++ ds)

/-- `d` is a hexadecimal digit of value `v`. -/
def HexDigit (d v : Nat) : Prop :=
  (v < 10 ∧ d = 48 + v) ∨ (10 ≤ v ∧ v < 16 ∧ (d = 97 + (v - 10) ∨ d = 65 + (v - 10)))

/-- Four hexadecimal digits of value `v`. -/
def Hex4 (t : Bytes) (v : Nat) : Prop :=
  ∃ a b c d va vb vc vd, t = [a, b, c, d] ∧ HexDigit a va ∧ HexDigit b vb ∧ HexDigit c vc ∧
    HexDigit d vd ∧ v = va * 4096 + vb * 256 + vc * 16 + vd

/-- A character that a string contains as it is. -/
def Plain (c : Nat) : Prop := 0x20 ≤ c ∧ c ≠ ch '"' ∧ c ≠ ch '\\'

/-- The escapes of one letter. -/
def simpleEscapes : List (Nat × Nat) :=
  [(ch '"', ch '"'), (ch '\\', ch '\\'), (ch '/', ch '/'), (ch 'b', 8), (ch 'f', 12), (ch 'n', 10),
   (ch 'r', 13), (ch 't', 9)]

/-- What may be written between the quotes of a string. -/
inductive IsBody : Bytes → Prop
  | nil : IsBody []
  | plain {c t} : Plain c → IsBody t → IsBody (c :: t)
  | simple {c r t} : (c, r) ∈ simpleEscapes → IsBody t → IsBody (ch '\\' :: c :: t)
  | unicode {h v t} : Hex4 h v → IsBody t → IsBody (ch '\\' :: ch 'u' :: (h ++ t))

/-- The bytes of a character in UTF-8. -/
def charBytes (c : Char) : Bytes := (String.utf8EncodeChar c).map UInt8.toNat

/-- The content, in UTF-8, of a string with a given body.  Halves of surrogate pairs
that stand alone have no content. -/
inductive Decodes : Bytes → Bytes → Prop
  | nil : Decodes [] []
  | plain {c t o} : Plain c → Decodes t o → Decodes (c :: t) (c :: o)
  | simple {c r t o} : (c, r) ∈ simpleEscapes → Decodes t o → Decodes (ch '\\' :: c :: t) (r :: o)
  | unicode {h t o} {c : Char} : Hex4 h c.toNat → Decodes t o →
      Decodes (ch '\\' :: ch 'u' :: (h ++ t)) (charBytes c ++ o)
  | pair {h h' v v' t o} {c : Char} : Hex4 h v → Hex4 h' v' → 0xD800 ≤ v → v < 0xDC00 →
      0xDC00 ≤ v' → v' < 0xE000 → c.toNat = 0x10000 + (v - 0xD800) * 0x400 + (v' - 0xDC00) →
      Decodes t o →
      Decodes (ch '\\' :: ch 'u' :: (h ++ ch '\\' :: ch 'u' :: (h' ++ t))) (charBytes c ++ o)

/-- ASCII whitespace. -/
def Space (c : Nat) : Prop := c = 32 ∨ c = 9 ∨ c = 10 ∨ c = 11 ∨ c = 12 ∨ c = 13

def Spaces (w : Bytes) : Prop := ∀ c ∈ w, Space c

def Empty (w : Bytes) : Prop := w = []

def quoted (body : Bytes) : Bytes := ch '"' :: (body ++ [ch '"'])

def nullText : Bytes := [ch 'n', ch 'u', ch 'l', ch 'l']

def boolText : Bool → Bytes
  | true => [ch 't', ch 'r', ch 'u', ch 'e']
  | false => [ch 'f', ch 'a', ch 'l', ch 's', ch 'e']

/-- A value, the elements of an array, or the members of an object. -/
inductive Node where
  | value (v : Json)
  | elems (l : List Json)
  | members (l : List (Bytes × Json))

/-- `Text W n t`: `t` is a text of `n`; the whitespace in it is in `W`. -/
inductive Text (W : Bytes → Prop) : Node → Bytes → Prop
  | null : Text W (.value .null) nullText
  | bool (b) : Text W (.value (.bool b)) (boolText b)
  | num {t} : IsNumber t → Text W (.value (.num t)) t
  | str {b} : IsBody b → Text W (.value (.str b)) (quoted b)
  | arrNil {w} : W w → Text W (.value (.arr [])) (ch '[' :: (w ++ [ch ']']))
  | arr {l t} : Text W (.elems l) t → Text W (.value (.arr l)) (ch '[' :: (t ++ [ch ']']))
  | objNil {w} : W w → Text W (.value (.obj [])) (ch '{' :: (w ++ [ch '}']))
  | obj {l t} : Text W (.members l) t → Text W (.value (.obj l)) (ch '{' :: (t ++ [ch '}']))
  | elem {v w t w'} : W w → Text W (.value v) t → W w' → Text W (.elems [v]) (w ++ (t ++ w'))
  | elems {v w t w' l r} : W w → Text W (.value v) t → W w' → Text W (.elems l) r →
      Text W (.elems (v :: l)) (w ++ (t ++ (w' ++ ch ',' :: r)))
  | member {k v w w1 w2 t w'} : W w → IsBody k → W w1 → W w2 → Text W (.value v) t → W w' →
      Text W (.members [(k, v)]) (w ++ (quoted k ++ (w1 ++ ch ':' :: (w2 ++ (t ++ w')))))
  | members {k v w w1 w2 t w' l r} : W w → IsBody k → W w1 → W w2 → Text W (.value v) t → W w' →
      Text W (.members l) r →
      Text W (.members ((k, v) :: l))
        (w ++ (quoted k ++ (w1 ++ ch ':' :: (w2 ++ (t ++ (w' ++ ch ',' :: r))))))

/-- Whitespace-separated JSON values: the valid inputs. -/
inductive Doc : List Json → Bytes → Prop
  | nil {w} : Spaces w → Doc [] w
  | last {w v t} : Spaces w → Text Spaces (.value v) t → Doc [v] (w ++ t)
  | cons {w v t c l r} : Spaces w → Text Spaces (.value v) t → Space c → Doc l r →
      Doc (v :: l) (w ++ (t ++ c :: r))

/-- Strings, arrays and objects end by themselves. -/
def EndsItself : Json → Prop
  | .null => False
  | .bool _ => False
  | .num _ => False
  | _ => True

/-- JSON values in a row: whitespace may be left out after strings, arrays and objects, and before
arrays and objects. -/
inductive Row : List Json → Bytes → Prop
  | nil {w} : Spaces w → Row [] w
  | last {w v t} : Spaces w → Text Spaces (.value v) t → Row [v] (w ++ t)
  | cons {w v t c l r} : Spaces w → Text Spaces (.value v) t → Space c → Row l r → Row (v :: l) (w ++ (t ++ c :: r))
  | closed {w v t l r} : Spaces w → Text Spaces (.value v) t → EndsItself v → Row l r → Row (v :: l) (w ++ (t ++ r))
  | bracket {w v t c l r} : Spaces w → Text Spaces (.value v) t → c = ch '[' ∨ c = ch '{' → Row l (c :: r) →
      Row (v :: l) (w ++ (t ++ c :: r))

/-- The stream delivers the text: its items are strings, which may be cut anywhere,
and missing items. -/
inductive Delivers : List StreamItem → Bytes → Prop
  | nil : Delivers [] []
  | text {c l t} : Delivers l t → Delivers (.text c :: l) (c ++ t)
  | missing {l t} : Delivers l t → Delivers (.missing :: l) t

/-! ### Compact texts -/

mutual

/-- The text of a value without whitespace. -/
def compact : Json → Bytes
  | .null => nullText
  | .bool b => boolText b
  | .num t => t
  | .str b => quoted b
  | .arr l => ch '[' :: (compactElems l ++ [ch ']'])
  | .obj l => ch '{' :: (compactMembers l ++ [ch '}'])

def compactElems : List Json → Bytes
  | [] => []
  | [v] => compact v
  | v :: l => compact v ++ ch ',' :: compactElems l

def compactMembers : List (Bytes × Json) → Bytes
  | [] => []
  | [(k, v)] => quoted k ++ ch ':' :: compact v
  | (k, v) :: l => quoted k ++ ch ':' :: (compact v ++ ch ',' :: compactMembers l)

end

/-- One value per line. -/
def lines (l : List Json) : Bytes := l.flatMap fun v => compact v ++ [nl]

/-! ### Pretty texts -/

/-- A new line with `d` indents. -/
def newLine (indent : Bytes) (d : Nat) : Bytes := nl :: (List.replicate d indent).flatten

mutual

/-- The text that `json.dumps(..., indent=indent)` has, in a container of depth `d`. -/
def pretty (indent : Bytes) (d : Nat) : Json → Bytes
  | .null => nullText
  | .bool b => boolText b
  | .num t => t
  | .str b => quoted b
  | .arr [] => [ch '[', ch ']']
  | .arr l => ch '[' :: (prettyElems indent (d + 1) l ++ newLine indent d ++ [ch ']'])
  | .obj [] => [ch '{', ch '}']
  | .obj l => ch '{' :: (prettyMembers indent (d + 1) l ++ newLine indent d ++ [ch '}'])

def prettyElems (indent : Bytes) (d : Nat) : List Json → Bytes
  | [] => []
  | [v] => newLine indent d ++ pretty indent d v
  | v :: l => newLine indent d ++ pretty indent d v ++ ch ',' :: prettyElems indent d l

def prettyMembers (indent : Bytes) (d : Nat) : List (Bytes × Json) → Bytes
  | [] => []
  | [(k, v)] => newLine indent d ++ quoted k ++ [ch ':', 32] ++ pretty indent d v
  | (k, v) :: l =>
    newLine indent d ++ quoted k ++ [ch ':', 32] ++ pretty indent d v ++ ch ',' :: prettyMembers indent d l

end

/-- Values in their pretty texts, separated by newlines. -/
def prettyDoc (indent : Bytes) : List Json → Bytes
  | [] => []
  | v :: l => pretty indent 0 v ++ l.flatMap fun w => nl :: pretty indent 0 w

/-! ### Parts of values -/

def isNonemptyObject : Json → Bool
  | .obj (_ :: _) => true
  | _ => false

def isNonemptyArray : Json → Bool
  | .arr (_ :: _) => true
  | _ => false

def isNull : Json → Bool
  | .null => true
  | _ => false

def isContainer : Json → Bool
  | .arr _ => true
  | .obj _ => true
  | _ => false

/-- The elements of an array; other values have none. -/
def elements : Json → List Json
  | .arr l => l
  | _ => []

/-- The `n`-th element of an array, `null` if there is none. -/
def nthValue (n : Nat) (v : Json) : Json := ((elements v)[n]?).getD .null

/-- After a value that is not a container there must be an array with an `n`-th
element. -/
def NthOk (k : Nat) : List Json → Prop
  | [] => True
  | v :: l => (isContainer v = false → ∀ u l', l = u :: l' → k < (elements u).length) ∧ NthOk k l

mutual

/-- The bodies of all strings of a value, keys included, from left to right. -/
def bodies : Json → List Bytes
  | .str b => [b]
  | .arr l => bodiesElems l
  | .obj l => bodiesMembers l
  | _ => []

def bodiesElems : List Json → List Bytes
  | [] => []
  | v :: l => bodies v ++ bodiesElems l

def bodiesMembers : List (Bytes × Json) → List Bytes
  | [] => []
  | (k, v) :: l => k :: bodies v ++ bodiesMembers l

end

/-- The contents of strings one after the other. -/
inductive DecodesAll : List Bytes → Bytes → Prop
  | nil : DecodesAll [] []
  | cons {b o l os} : Decodes b o → DecodesAll l os → DecodesAll (b :: l) (o ++ os)

/-- The values of the members with a given key, in their order. -/
inductive KeyValues (key : Bytes) : List (Bytes × Json) → List Json → Prop
  | nil : KeyValues key [] []
  | hit {k v l vs} : Decodes k key → KeyValues key l vs → KeyValues key ((k, v) :: l) (v :: vs)
  | miss {k k' v l vs} : Decodes k k' → k' ≠ key → KeyValues key l vs → KeyValues key ((k, v) :: l) vs

/-- The members of an object; other values have none. -/
def objectMembers : Json → List (Bytes × Json)
  | .obj l => l
  | _ => []

/-- The values of the members with a given key, for each of several values. -/
inductive AllKeyValues (key : Bytes) : List Json → List (List Json) → Prop
  | nil : AllKeyValues key [] []
  | cons {v vs l r} : KeyValues key (objectMembers v) vs → AllKeyValues key l r →
      AllKeyValues key (v :: l) (vs :: r)

/-! ### Extraction -/

mutual

/-- The values below a value at the path `p` whose paths are chosen by `f`, from left to right;
nothing is looked for in the values found.  `dec` is the content of keys. -/
def below (f : List Part → Bool) (dec : Bytes → Bytes) (p : List Part) : Json → List (List Part × Json)
  | .arr l => belowElems f dec p 0 l
  | .obj l => belowMembers f dec p l
  | _ => []

def belowElems (f : List Part → Bool) (dec : Bytes → Bytes) (p : List Part) (i : Nat) :
    List Json → List (List Part × Json)
  | [] => []
  | v :: l =>
    (if f (p ++ [.index i]) then [(p ++ [.index i], v)] else below f dec (p ++ [.index i]) v) ++
      belowElems f dec p (i + 1) l

def belowMembers (f : List Part → Bool) (dec : Bytes → Bytes) (p : List Part) :
    List (Bytes × Json) → List (List Part × Json)
  | [] => []
  | (k, v) :: l =>
    (if f (p ++ [.key (dec k)]) then [(p ++ [.key (dec k)], v)]
      else below f dec (p ++ [.key (dec k)]) v) ++ belowMembers f dec p l

end

/-- The values chosen by `f`. -/
def found (f : List Part → Bool) (dec : Bytes → Bytes) (p : List Part) (v : Json) : List (List Part × Json) :=
  if f p then [(p, v)] else below f dec p v

mutual

/-- No object in the value is empty. -/
def noEmptyObject : Json → Bool
  | .obj [] => false
  | .obj l => noEmptyMembers l
  | .arr l => noEmptyElems l
  | _ => true

def noEmptyElems : List Json → Bool
  | [] => true
  | v :: l => noEmptyObject v && noEmptyElems l

def noEmptyMembers : List (Bytes × Json) → Bool
  | [] => true
  | (_, v) :: l => noEmptyObject v && noEmptyMembers l

end

def isString : Json → Bool
  | .str _ => true
  | _ => false

mutual

/-- No array in the value has a string as an element. -/
def noListedString : Json → Bool
  | .obj l => noListedMembers l
  | .arr l => noListedElems l
  | _ => true

def noListedElems : List Json → Bool
  | [] => true
  | v :: l => !isString v && noListedString v && noListedElems l

def noListedMembers : List (Bytes × Json) → Bool
  | [] => true
  | (_, v) :: l => noListedString v && noListedMembers l

end

end Verif.JsonStream
