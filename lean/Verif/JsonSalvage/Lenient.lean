/-
JSON-like texts and their values: what `kd.json_stream.salvage` should understand (JSON, JSON5, literals
of Python and JavaScript).  Texts are sequences of code points.  Nothing here depends on how the
processor works.
-/
import Verif.JsonSalvage.Spec

namespace Verif.JsonSalvage

open Verif.JsonStream

/-! ### Values -/

/-- JSON values.  Numbers are JSON texts, strings their contents. -/
inductive Value where
  | null
  | bool (b : Bool)
  | nan
  | infinity
  | minusInfinity
  | num (text : List Nat)
  | str (content : List Nat)
  | arr (l : List Value)
  | obj (l : List (List Nat × Value))

/-- Code points that have an encoding. -/
def IsScalar (c : Nat) : Prop := c < 0xD800 ∨ (0xE000 ≤ c ∧ c < 0x110000)

def Lead (c : Nat) : Prop := 0xD800 ≤ c ∧ c < 0xDC00

def Trail (c : Nat) : Prop := 0xDC00 ≤ c ∧ c < 0xE000

/-- The code point of a surrogate pair. -/
def pairCode (a b : Nat) : Nat := 0x10000 + (a - 0xD800) * 0x400 + (b - 0xDC00)

/-- The content of what is between the quotes of a JSON string. -/
inductive Content : List Nat → List Nat → Prop
  | nil : Content [] []
  | plain {c t u} : Plain c → Content t u → Content (c :: t) (c :: u)
  | simple {c r t u} : (c, r) ∈ simpleEscapes → Content t u → Content (ch '\\' :: c :: t) (r :: u)
  | unicode {h v t u} : Hex4 h v → IsScalar v → Content t u → Content (ch '\\' :: ch 'u' :: (h ++ t)) (v :: u)
  | pair {h h' v v' t u} : Hex4 h v → Hex4 h' v' → Lead v → Trail v' → Content t u →
      Content (ch '\\' :: ch 'u' :: (h ++ ch '\\' :: ch 'u' :: (h' ++ t))) (pairCode v v' :: u)

inductive Item where
  | value (v : Value)
  | elems (l : List Value)
  | members (l : List (List Nat × Value))

/-- JSON texts without whitespace, and what they mean. -/
inductive Writes : Item → List Nat → Prop
  | null : Writes (.value .null) nullText
  | bool (b) : Writes (.value (.bool b)) (boolText b)
  | nan : Writes (.value .nan) nanText
  | infinity : Writes (.value .infinity) infinityText
  | minusInfinity : Writes (.value .minusInfinity) (ch '-' :: infinityText)
  | num {t} : Writes (.value (.num t)) t
  | str {b u} : Content b u → Writes (.value (.str u)) (quoted b)
  | arrNil : Writes (.value (.arr [])) [ch '[', ch ']']
  | arr {l t} : Writes (.elems l) t → Writes (.value (.arr l)) (ch '[' :: (t ++ [ch ']']))
  | objNil : Writes (.value (.obj [])) [ch '{', ch '}']
  | obj {l t} : Writes (.members l) t → Writes (.value (.obj l)) (ch '{' :: (t ++ [ch '}']))
  | elem {v t} : Writes (.value v) t → Writes (.elems [v]) t
  | elems {v t l r} : Writes (.value v) t → Writes (.elems l) r → Writes (.elems (v :: l)) (t ++ ch ',' :: r)
  | member {k b v t} : Content b k → Writes (.value v) t → Writes (.members [(k, v)]) (quoted b ++ ch ':' :: t)
  | members {k b v t l r} : Content b k → Writes (.value v) t → Writes (.members l) r →
      Writes (.members ((k, v) :: l)) (quoted b ++ ch ':' :: (t ++ ch ',' :: r))

/-- Values on lines of their own. -/
inductive WritesDoc : List Value → List Nat → Prop
  | nil : WritesDoc [] []
  | last {v t} : Writes (.value v) t → WritesDoc [v] t
  | cons {v t w l r} : Writes (.value v) t → WritesDoc (w :: l) r → WritesDoc (v :: w :: l) (t ++ nl :: r)

/-! ### Between values -/

/-- `White_Space` of Unicode, and U+FEFF. -/
def spaces : List Nat :=
  [9, 10, 11, 12, 13, 32, 0x85, 0xA0, 0x1680, 0x2000, 0x2001, 0x2002, 0x2003, 0x2004, 0x2005, 0x2006, 0x2007, 0x2008,
   0x2009, 0x200A, 0x2028, 0x2029, 0x202F, 0x205F, 0x3000, 0xFEFF]

/-- The line terminators of JSON5. -/
def lineEnds : List Nat := [10, 13, 0x2028, 0x2029]

/-- The text of a comment in `/*` and `*/`.  Every second of adjacent asterisks is not seen as one. -/
inductive CommentBody : List Nat → Prop
  | nil : CommentBody []
  | other {c t} : c ≠ ch '*' → CommentBody t → CommentBody (c :: t)
  | star {c t} : c ≠ ch '/' → CommentBody t → CommentBody (ch '*' :: c :: t)

/-- What may be between values: whitespace, commas, colons and comments. -/
inductive Filler : List Nat → Prop
  | nil : Filler []
  | space {c t} : (c ∈ spaces ∨ c = ch ',' ∨ c = ch ':') → Filler t → Filler (c :: t)
  | hash {b e t} : (∀ c ∈ b, c ∉ lineEnds) → e ∈ lineEnds → Filler t → Filler (ch '#' :: (b ++ e :: t))
  | line {b e t} : (∀ c ∈ b, c ∉ lineEnds) → e ∈ lineEnds → Filler t →
      Filler (ch '/' :: ch '/' :: (b ++ e :: t))
  | block {b t} : CommentBody b → Filler t →
      Filler (ch '/' :: ch '*' :: (b ++ ch '*' :: ch '/' :: t))

/-- A comment that goes on to the end of the text. -/
inductive OpenComment : List Nat → Prop
  | hash {b} : (∀ c ∈ b, c ∉ lineEnds) → OpenComment (ch '#' :: b)
  | line {b} : (∀ c ∈ b, c ∉ lineEnds) → OpenComment (ch '/' :: ch '/' :: b)
  | block {b} : CommentBody b → OpenComment (ch '/' :: ch '*' :: b)

/-! ### What must follow -/

/-- How a text ends: by itself, or by what follows. -/
inductive Ending where
  | closed
  | number
  | word
  | quote (q : Nat)

def IsDigit (c : Nat) : Prop := 48 ≤ c ∧ c ≤ 57

def IsLetter (c : Nat) : Prop := (65 ≤ c ∧ c ≤ 90) ∨ (97 ≤ c ∧ c ≤ 122)

/-- Characters that end a text of a certain ending; the end of the input ends all. -/
def Ends : Ending → Option Nat → Prop
  | .closed, _ => True
  | .number, some c =>
    ¬ IsDigit c ∧ ¬ IsLetter c ∧ c ≠ ch '.' ∧ c ≠ ch '_' ∧ c ≠ ch '\'' ∧ c ≠ ch '+' ∧ c ≠ ch '-'
  | .word, some c => c ∈ spaces ∨ c = ch ',' ∨ c = ch ':' ∨ c = ch ']' ∨ c = ch '}' ∨ c = ch ')'
  | .quote q, some c => c ≠ q
  | _, none => True

/-! ### Strings -/

/-- Parts of strings: values of code points and code units, and characters that are not looked
at as halves of surrogate pairs. -/
inductive Tok where
  | unit (n : Nat)
  | kept (c : Nat)

/-- What parts of strings mean: halves of surrogate pairs are put together, others are replaced.  A first
half must not be followed by a `kept` part. -/
inductive Means : List Tok → List Nat → Prop
  | nil : Means [] []
  | scalar {c ts u} : IsScalar c → Means ts u → Means (.unit c :: ts) (c :: u)
  | kept {c ts u} : Means ts u → Means (.kept c :: ts) (c :: u)
  | pair {a b ts u} : Lead a → Trail b → Means ts u → Means (.unit a :: .unit b :: ts) (pairCode a b :: u)
  | trail {b ts u} : Trail b → Means ts u → Means (.unit b :: ts) (0xFFFD :: u)
  | big {n ts u} : 0x110000 ≤ n → Means ts u → Means (.unit n :: ts) (0xFFFD :: u)
  | lead {a n ts u} : Lead a → ¬ Trail n → Means (.unit n :: ts) u → Means (.unit a :: .unit n :: ts) (0xFFFD :: u)
  | leadEnd {a} : Lead a → Means [.unit a] [0xFFFD]

/-- The value of a digit. -/
def digit (c : Nat) : Nat := if c ≤ 57 then c - 48 else if c ≤ 70 then c - 55 else c - 87

/-- The number that digits are. -/
def number (base : Nat) (ds : List Nat) : Nat := ds.foldl (fun v c => v * base + digit c) 0

def IsHex (c : Nat) : Prop := IsDigit c ∨ (65 ≤ c ∧ c ≤ 70) ∨ (97 ≤ c ∧ c ≤ 102)

def IsOct (c : Nat) : Prop := 48 ≤ c ∧ c ≤ 55

/-- `n` digits, or less if no digit follows. -/
def UpTo (D : Nat → Prop) (n : Nat) (ds rest : List Nat) : Prop :=
  (∀ c ∈ ds, D c) ∧ (ds.length = n ∨ (ds.length < n ∧ ∀ c, rest.head? = some c → ¬ D c))

/-- The characters that have a meaning after a backslash. -/
def escapes : List Nat :=
  [ch '"', ch '\\', ch '/', ch 'b', ch 'f', ch 'n', ch 'r', ch 't', ch 'a', ch 'v', ch '\'', ch '`', ch 'u', ch 'U', ch 'x',
   ch 'X'] ++ lineEnds

/-- The rest of a string after its first quotes.  `q` is the quote, `close` what ends the
string: nothing if the text ends in the string. -/
inductive Body (q : Nat) (triple : Bool) (close : List Nat) : List Tok → List Nat → Prop
  | close : Body q triple close [] close
  | raw {c ts t} : c ≠ ch '\\' → c ≠ q → Body q triple close ts t → Body q triple close (.unit c :: ts) (c :: t)
  | simple {c r ts t} : (c, r) ∈ simpleEscapes → Body q triple close ts t → Body q triple close (.kept r :: ts) (ch '\\' :: c :: t)
  | bell {ts t} : Body q triple close ts t → Body q triple close (.unit 7 :: ts) (ch '\\' :: ch 'a' :: t)
  | tab {ts t} : Body q triple close ts t → Body q triple close (.unit 11 :: ts) (ch '\\' :: ch 'v' :: t)
  | quote {c ts t} : c = ch '\'' ∨ c = ch '`' → Body q triple close ts t → Body q triple close (.kept c :: ts) (ch '\\' :: c :: t)
  | hex2 {x ds ts t} : x = ch 'x' ∨ x = ch 'X' → UpTo IsHex 2 ds t → Body q triple close ts t →
      Body q triple close (.unit (number 16 ds) :: ts) (ch '\\' :: x :: (ds ++ t))
  | hex4 {ds ts t} : UpTo IsHex 4 ds t → (ds = [] → t.head? ≠ some (ch '{')) → Body q triple close ts t →
      Body q triple close (.unit (number 16 ds) :: ts) (ch '\\' :: ch 'u' :: (ds ++ t))
  | hex8 {ds ts t} : UpTo IsHex 8 ds t → (ds = [] → t.head? ≠ some (ch '{')) → Body q triple close ts t →
      Body q triple close (.unit (number 16 ds) :: ts) (ch '\\' :: ch 'U' :: (ds ++ t))
  | braces {x ds ts t} : x = ch 'u' ∨ x = ch 'U' → (∀ c ∈ ds, IsHex c) → ds.length ≤ 8 → Body q triple close ts t →
      Body q triple close (.unit (number 16 ds) :: ts) (ch '\\' :: x :: ch '{' :: (ds ++ ch '}' :: t))
  | octal {ds ts t} : ds ≠ [] → UpTo IsOct 3 ds t → Body q triple close ts t →
      Body q triple close (.unit (number 8 ds) :: ts) (ch '\\' :: (ds ++ t))
  | lineEnd {c ts t} : c ∈ lineEnds → c ≠ 13 → Body q triple close ts t → Body q triple close ts (ch '\\' :: c :: t)
  | crlf {ts t} : Body q triple close ts t → Body q triple close ts (ch '\\' :: 13 :: 10 :: t)
  | cr {ts t} : t.head? ≠ some 10 → Body q triple close ts t → Body q triple close ts (ch '\\' :: 13 :: t)
  | unknown {c ts t} : 0x20 ≤ c → c ∉ escapes → ¬ IsOct c → Body q triple close ts t →
      Body q triple close (.kept (ch '\\') :: .kept c :: ts) (ch '\\' :: c :: t)
  | one {c ts t} : triple = true → c ≠ q → Body q triple close ts t →
      Body q triple close (.unit q :: .unit c :: ts) (q :: c :: t)
  | two {c ts t} : triple = true → c ≠ q → Body q triple close ts t →
      Body q triple close (.unit q :: .unit q :: .unit c :: ts) (q :: q :: c :: t)
  | cutEscape : close = [] → Body q triple close [] [ch '\\']
  | cutBraces {x ds} : close = [] → x = ch 'u' ∨ x = ch 'U' → (∀ c ∈ ds, IsHex c) → ds.length ≤ 8 →
      Body q triple close [.unit (number 16 ds)] (ch '\\' :: x :: ch '{' :: ds)
  | cutQuotes {t} : close = [] → triple = true → t = [q] ∨ t = [q, q] → Body q triple close [] t

/-- Strings in quotes. -/
inductive QuotedText : List Nat → List Nat → Ending → Prop
  | empty {q} : q = ch '"' ∨ q = ch '\'' → QuotedText [] [q, q] (.quote q)
  | single {q ts t u} : q = ch '"' ∨ q = ch '\'' ∨ q = ch '`' → Body q false [q] ts t → t.head? ≠ some q → Means ts u →
      QuotedText u (q :: t) .closed
  | triple {q ts t u} : q = ch '"' ∨ q = ch '\'' → Body q true [q, q, q] ts t → Means ts u →
      QuotedText u (q :: q :: q :: t) .closed

/-- The characters of words. -/
def WordPart (c : Nat) : Prop :=
  IsScalar c ∧ c ∉ spaces ∧ c ≠ ch ',' ∧ c ≠ ch ':' ∧ c ≠ ch '[' ∧ c ≠ ch ']' ∧ c ≠ ch '{' ∧ c ≠ ch '}' ∧ c ≠ ch '(' ∧ c ≠ ch ')'

/-- The characters that words begin with, apart from digits. -/
def WordStart (c : Nat) : Prop := (IsLetter c ∨ c = ch '_' ∨ c = ch '$' ∨ 0x80 ≤ c) ∧ c ∉ spaces

/-- The words that have a meaning, in small letters. -/
def meanings (allowNan : Bool) : List (List Nat × Value) :=
  [([ch 't', ch 'r', ch 'u', ch 'e'], .bool true), ([ch 'f', ch 'a', ch 'l', ch 's', ch 'e'], .bool false),
   ([ch 'n', ch 'u', ch 'l', ch 'l'], .null), ([ch 'n', ch 'o', ch 'n', ch 'e'], .null)] ++
  if allowNan then
    [([ch 'n', ch 'a', ch 'n'], .nan), ([ch '-', ch 'n', ch 'a', ch 'n'], .nan), ([ch '+', ch 'n', ch 'a', ch 'n'], .nan),
     ([ch 'i', ch 'n', ch 'f', ch 'i', ch 'n', ch 'i', ch 't', ch 'y'], .infinity),
     ([ch '+', ch 'i', ch 'n', ch 'f', ch 'i', ch 'n', ch 'i', ch 't', ch 'y'], .infinity),
     ([ch '-', ch 'i', ch 'n', ch 'f', ch 'i', ch 'n', ch 'i', ch 't', ch 'y'], .minusInfinity)]
  else []

/-- A letter in small. -/
def small (c : Nat) : Nat := if 65 ≤ c ∧ c ≤ 90 then c + 32 else c

/-- Words without quotes that are strings.  Before a quote, `b` and `u` are something else. -/
def IsWord (w : List Nat) : Prop :=
  (∃ c, w.head? = some c ∧ (WordStart c ∨ IsDigit c)) ∧ (∀ c ∈ w, WordPart c) ∧
    ∀ c d, w[0]? = some c → w[1]? = some d → (c = ch 'b' ∨ c = ch 'u') → d ≠ ch '"' ∧ d ≠ ch '\''

/-! ### Numbers -/

/-- Without leading zeros. -/
def dropZeros : List Nat → List Nat
  | [] => [ch '0']
  | [c] => [c]
  | c :: d :: t => if c = ch '0' then dropZeros (d :: t) else c :: d :: t

/-- The digits of a number in base ten. -/
def decimalDigits (n : Nat) : List Nat :=
  if _h : n < 10 then [48 + n] else decimalDigits (n / 10) ++ [48 + n % 10]
termination_by n

def orZero (ds : List Nat) : List Nat := if ds = [] then [ch '0'] else ds

/-- Numbers without sign: the JSON number and the text. -/
inductive Unsigned : List Nat → List Nat → Prop
  | int {ds} : Digits ds → Unsigned (dropZeros ds) ds
  | frac {ds fs} : (∀ c ∈ ds ++ fs, IsDigit c) →
      Unsigned (dropZeros ds ++ ch '.' :: orZero fs) (ds ++ ch '.' :: fs)
  | intExp {ds e g xs} : Digits ds → e = ch 'e' ∨ e = ch 'E' → g = [] ∨ g = [ch '+'] ∨ g = [ch '-'] →
      (∀ c ∈ xs, IsDigit c) → Unsigned (dropZeros ds ++ ch 'e' :: (g ++ orZero xs)) (ds ++ e :: (g ++ xs))
  | fracExp {ds fs e g xs} : (∀ c ∈ ds ++ fs, IsDigit c) → e = ch 'e' ∨ e = ch 'E' →
      g = [] ∨ g = [ch '+'] ∨ g = [ch '-'] → (∀ c ∈ xs, IsDigit c) →
      Unsigned (dropZeros ds ++ ch '.' :: (orZero fs ++ ch 'e' :: (g ++ orZero xs)))
        (ds ++ ch '.' :: (fs ++ e :: (g ++ xs)))
  | hex {x ds} : x = ch 'x' ∨ x = ch 'X' → (∀ c ∈ ds, IsHex c) → ds.length ≤ 16 →
      Unsigned (decimalDigits (number 16 ds)) (ch '0' :: x :: ds)
  | octal {x ds} : x = ch 'o' ∨ x = ch 'O' → (∀ c ∈ ds, IsOct c) → ds.length ≤ 21 →
      Unsigned (decimalDigits (number 8 ds)) (ch '0' :: x :: ds)
  | binary {x ds} : x = ch 'b' ∨ x = ch 'B' → (∀ c ∈ ds, c = 48 ∨ c = 49) → ds.length ≤ 64 →
      Unsigned (decimalDigits (number 2 ds)) (ch '0' :: x :: ds)

def separators : List Nat := [ch '_', ch '\'']

/-- Numbers: a sign, digits with separators, and a suffix that does not matter. -/
inductive NumberText : List Nat → List Nat → Ending → Prop
  | plain {sg out n c r} : sg = [] ∨ sg = [ch '+'] ∨ sg = [ch '-'] → c ∉ separators →
      Unsigned n (c :: r.filter (· ∉ separators)) →
      out = (if sg = [ch '-'] then ch '-' :: n else n) → NumberText out (sg ++ c :: r) .number
  | suffix {out t x} : NumberText out t .number → x = ch 'n' ∨ x = ch 'l' ∨ x = ch 'L' →
      NumberText out (t ++ [x]) .closed

/-! ### Texts -/

inductive Part where
  | value (v : Value) (e : Ending)
  | key (k : List Nat) (e : Ending)
  | elems (l : List Value)
  | members (l : List (List Nat × Value))

/-- `Reads nan nest d p t`: in `d` containers the text `t` is `p`.  `nest d` tells
whether containers may begin there. -/
inductive Reads (allowNan : Bool) (nest : Nat → Prop) : Nat → Part → List Nat → Prop
  | atom {d a v t} : (a, v) ∈ meanings allowNan → t.map small = a → Reads allowNan nest d (.value v .closed) t
  | num {d n t e} : NumberText n t e → Reads allowNan nest d (.value (.num n) e) t
  | str {d u t e} : QuotedText u t e → Reads allowNan nest d (.value (.str u) e) t
  | prefixed {d u t e c} : c = ch 'b' ∨ c = ch 'u' → QuotedText u t e → t.head? ≠ some (ch '`') →
      Reads allowNan nest d (.value (.str u) e) (c :: t)
  | word {d w} : IsWord w → (∀ c, w.head? = some c → ¬ IsDigit c) →
      (∀ a v, (a, v) ∈ meanings allowNan → ¬ a <+: w.map small) → Reads allowNan nest d (.value (.str w) .word) w
  | array {d l t c e} : c = ch '[' ∨ c = ch '(' → nest d → Reads allowNan nest (d + 1) (.elems l) t →
      e = ch ']' ∨ e = ch '}' ∨ e = ch ')' → Reads allowNan nest d (.value (.arr l) .closed) (c :: (t ++ [e]))
  | object {d l t e} : nest d → Reads allowNan nest (d + 1) (.members l) t →
      e = ch ']' ∨ e = ch '}' ∨ e = ch ')' → Reads allowNan nest d (.value (.obj l) .closed) (ch '{' :: (t ++ [e]))
  | keyStr {d u t e} : QuotedText u t e → Reads allowNan nest d (.key u e) t
  | keyPrefixed {d u t e c} : c = ch 'b' ∨ c = ch 'u' → QuotedText u t e → t.head? ≠ some (ch '`') →
      Reads allowNan nest d (.key u e) (c :: t)
  | keyWord {d w} : IsWord w → Reads allowNan nest d (.key w .word) w
  | elemsNil {d w} : Filler w → Reads allowNan nest d (.elems []) w
  | elems {d v e w t l r} : Filler w → Reads allowNan nest d (.value v e) t → Ends e r.head? →
      Reads allowNan nest d (.elems l) r → Reads allowNan nest d (.elems (v :: l)) (w ++ (t ++ r))
  | membersNil {d w} : Filler w → Reads allowNan nest d (.members []) w
  | members {d k e v e' w tk w' tv l r} : Filler w → Reads allowNan nest d (.key k e) tk →
      Ends e (w' ++ (tv ++ r)).head? → Filler w' → Reads allowNan nest d (.value v e') tv → Ends e' r.head? →
      Reads allowNan nest d (.members l) r →
      Reads allowNan nest d (.members ((k, v) :: l)) (w ++ (tk ++ (w' ++ (tv ++ r))))
  | keyOnly {d k e w tk w'} : Filler w → Reads allowNan nest d (.key k e) tk → Ends e w'.head? → Filler w' →
      Reads allowNan nest d (.members [(k, .null)]) (w ++ (tk ++ w'))
  | noKeyArray {d l' w t l r} : Filler w → Reads allowNan nest d (.value (.arr l') .closed) t →
      Reads allowNan nest d (.members l) r → Reads allowNan nest d (.members (([], .arr l') :: l)) (w ++ (t ++ r))
  | noKeyObject {d l' w t l r} : Filler w → Reads allowNan nest d (.value (.obj l') .closed) t →
      Reads allowNan nest d (.members l) r → Reads allowNan nest d (.members (([], .obj l') :: l)) (w ++ (t ++ r))

/-! ### Texts that are cut off -/

/-- Strings without closing quotes. -/
inductive CutText : List Nat → List Nat → Prop
  | single {q ts t u} : q = ch '"' ∨ q = ch '\'' ∨ q = ch '`' → Body q false [] ts t → t.head? ≠ some q → Means ts u →
      CutText u (q :: t)
  | triple {q ts t u} : q = ch '"' ∨ q = ch '\'' → Body q true [] ts t → Means ts u →
      CutText u (q :: q :: q :: t)

/-- `Cut nan nest d p t`: in `d` containers the text `t` is `p`, if what is open at the end of the text
is closed there. -/
inductive Cut (allowNan : Bool) (nest : Nat → Prop) : Nat → Part → List Nat → Prop
  | str {d u t} : CutText u t → Cut allowNan nest d (.value (.str u) .closed) t
  | prefixed {d u t c} : c = ch 'b' ∨ c = ch 'u' → CutText u t → t.head? ≠ some (ch '`') →
      Cut allowNan nest d (.value (.str u) .closed) (c :: t)
  | array {d l t c} : c = ch '[' ∨ c = ch '(' → nest d → Cut allowNan nest (d + 1) (.elems l) t →
      Cut allowNan nest d (.value (.arr l) .closed) (c :: t)
  | object {d l t} : nest d → Cut allowNan nest (d + 1) (.members l) t →
      Cut allowNan nest d (.value (.obj l) .closed) (ch '{' :: t)
  | keyStr {d u t} : CutText u t → Cut allowNan nest d (.key u .closed) t
  | keyPrefixed {d u t c} : c = ch 'b' ∨ c = ch 'u' → CutText u t → t.head? ≠ some (ch '`') →
      Cut allowNan nest d (.key u .closed) (c :: t)
  | elemsEnd {d l t} : Reads allowNan nest d (.elems l) t → Cut allowNan nest d (.elems l) t
  | elemsComment {d w t} : Filler w → OpenComment t → Cut allowNan nest d (.elems []) (w ++ t)
  | elemsLast {d v w t} : Filler w → Cut allowNan nest d (.value v .closed) t → Cut allowNan nest d (.elems [v]) (w ++ t)
  | elems {d v e w t l r} : Filler w → Reads allowNan nest d (.value v e) t → Ends e r.head? →
      Cut allowNan nest d (.elems l) r → Cut allowNan nest d (.elems (v :: l)) (w ++ (t ++ r))
  | membersEnd {d l t} : Reads allowNan nest d (.members l) t → Cut allowNan nest d (.members l) t
  | membersComment {d w t} : Filler w → OpenComment t → Cut allowNan nest d (.members []) (w ++ t)
  | membersKey {d k w t} : Filler w → Cut allowNan nest d (.key k .closed) t →
      Cut allowNan nest d (.members [(k, .null)]) (w ++ t)
  | membersKeyComment {d k e w tk w' t} : Filler w → Reads allowNan nest d (.key k e) tk → Ends e (w' ++ t).head? → Filler w' →
      OpenComment t → Cut allowNan nest d (.members [(k, .null)]) (w ++ (tk ++ (w' ++ t)))
  | membersLast {d k e v w tk w' t} : Filler w → Reads allowNan nest d (.key k e) tk → Ends e (w' ++ t).head? → Filler w' →
      Cut allowNan nest d (.value v .closed) t → Cut allowNan nest d (.members [(k, v)]) (w ++ (tk ++ (w' ++ t)))
  | membersLastArray {d l w t} : Filler w → Cut allowNan nest d (.value (.arr l) .closed) t →
      Cut allowNan nest d (.members [([], .arr l)]) (w ++ t)
  | membersLastObject {d l w t} : Filler w → Cut allowNan nest d (.value (.obj l) .closed) t →
      Cut allowNan nest d (.members [([], .obj l)]) (w ++ t)
  | members {d k e v e' w tk w' tv l r} : Filler w → Reads allowNan nest d (.key k e) tk →
      Ends e (w' ++ (tv ++ r)).head? → Filler w' → Reads allowNan nest d (.value v e') tv → Ends e' r.head? →
      Cut allowNan nest d (.members l) r →
      Cut allowNan nest d (.members ((k, v) :: l)) (w ++ (tk ++ (w' ++ (tv ++ r))))
  | noKeyArray {d l' w t l r} : Filler w → Reads allowNan nest d (.value (.arr l') .closed) t →
      Cut allowNan nest d (.members l) r → Cut allowNan nest d (.members (([], .arr l') :: l)) (w ++ (t ++ r))
  | noKeyObject {d l' w t l r} : Filler w → Reads allowNan nest d (.value (.obj l') .closed) t →
      Cut allowNan nest d (.members l) r → Cut allowNan nest d (.members (([], .obj l') :: l)) (w ++ (t ++ r))

/-! ### Bytes -/

/-- Bytes of a character after the first. -/
def IsTrailByte (b : Nat) : Prop := 0x80 ≤ b ∧ b < 0xC0

/-- The first bytes of characters of more than one byte, and how many must follow. -/
def Needs (b n : Nat) : Prop :=
  (0xC2 ≤ b ∧ b < 0xE0 ∧ n = 1) ∨ (0xE0 ≤ b ∧ b < 0xF0 ∧ n = 2) ∨ (0xF0 ≤ b ∧ b < 0xF8 ∧ n = 3)

/-- The text that bytes stand for.  What is not UTF-8 becomes U+FFFD; the beginning of a character at the end
is dropped. -/
inductive Decodes : Bytes → List Char → Prop
  | nil : Decodes [] []
  | char {c t cs} : Decodes t cs → Decodes (charBytes c ++ t) (c :: cs)
  | alone {b t cs} : IsTrailByte b ∨ b = 0xC0 ∨ b = 0xC1 ∨ 0xF8 ≤ b → Decodes t cs → Decodes (b :: t) ('\uFFFD' :: cs)
  | wrong {a n l t cs} : Needs a n → (∀ b ∈ l, IsTrailByte b) → l.length = n → (∀ c, charBytes c ≠ a :: l) → Decodes t cs →
      Decodes (a :: (l ++ t)) ('\uFFFD' :: cs)
  | short {a n l b t cs} : Needs a n → (∀ b ∈ l, IsTrailByte b) → l.length < n → ¬ IsTrailByte b → Decodes (b :: t) cs →
      Decodes (a :: (l ++ b :: t)) ('\uFFFD' :: cs)
  | cut {a n l} : Needs a n → (∀ b ∈ l, IsTrailByte b) → l.length < n → Decodes (a :: l) []

/-! ### JSON -/

/-- The exponents of numbers are written with `e`. -/
def smallE (t : List Nat) : List Nat := t.map fun c => if c = ch 'E' then ch 'e' else c

/-- The meaning of JSON in at most `n` containers inside each other. -/
inductive Denotes : Nat → Node → Item → Prop
  | null {n} : Denotes n (.value .null) (.value .null)
  | bool {n b} : Denotes n (.value (.bool b)) (.value (.bool b))
  | num {n t} : Denotes n (.value (.num t)) (.value (.num (smallE t)))
  | str {n b u} : Content b u → Denotes n (.value (.str b)) (.value (.str u))
  | arr {n l l'} : Denotes n (.elems l) (.elems l') → Denotes (n + 1) (.value (.arr l)) (.value (.arr l'))
  | obj {n l l'} : Denotes n (.members l) (.members l') → Denotes (n + 1) (.value (.obj l)) (.value (.obj l'))
  | elemsNil {n} : Denotes n (.elems []) (.elems [])
  | elems {n v v' l l'} : Denotes n (.value v) (.value v') → Denotes n (.elems l) (.elems l') →
      Denotes n (.elems (v :: l)) (.elems (v' :: l'))
  | membersNil {n} : Denotes n (.members []) (.members [])
  | members {n k k' v v' l l'} : Content k k' → Denotes n (.value v) (.value v') →
      Denotes n (.members l) (.members l') → Denotes n (.members ((k, v) :: l)) (.members ((k', v') :: l'))

end Verif.JsonSalvage
