/-
The salvage processor of `kd.json_stream.salvage`, which makes JSON of JSON-like text:
`JsonSalvageStreamProcessor` in /repo/koladata/internal/op_utils/json_stream.{h,cc} and
`JsonStreamSalvageStream` in /repo/koladata/operators/json_stream.cc 206-223.

A code point is a number, `none` stands for the end of the input.  Simplified: the output
(`output_`) is kept as code points, which `consume` encodes, whereas the code encodes each
code point when it is emitted; branches that the code itself says are unreachable are left out.
-/
import Verif.JsonStream.Model

namespace Verif.JsonSalvage

open Verif.JsonStream

/-- `JsonSalvageOptions` (json_stream.h 37-51). -/
structure Options where
  allowNan : Bool
  ensureAscii : Bool
  maxDepth : Int
deriving DecidableEq, Repr

/-- `ContainerType` without `kTopLevel` (json_stream.h 105-109). -/
inductive Container where
  | array
  | object
deriving DecidableEq, Repr

/-- `State` (json_stream.h 115-127). -/
inductive State where
  | base
  | doubleQuote
  | singleQuote
  | backtick
  | tripleDouble
  | tripleSingle
  | unquoted
  | lineComment
  | blockComment
  | numberBuffered
  | numberDecimal
deriving DecidableEq, Repr

/-- The members of `JsonSalvageStreamProcessor` (json_stream.h 190-241).  The innermost
container comes first in `stack`. -/
structure Salvage where
  utf8Buffer : Bytes
  stack : List Container
  sep : Bool
  key : Bool
  buffer : List Nat
  state : State
  surrogate : Option Nat
  output : List Nat
deriving DecidableEq, Repr

def initial : Salvage :=
  { utf8Buffer := [], stack := [], sep := false, key := false, buffer := [], state := .base,
    surrogate := none, output := [] }

/-! ### Output -/

/-- `EmitRawOutput` (json_stream.cc 994-1010). -/
def Salvage.emit (x : List Nat) (s : Salvage) : Salvage := { s with output := s.output ++ x }

/-- `absl::StrFormat("\\u%04x", v)` for `v < 0x10000`. -/
def escape4 (v : Nat) : List Nat :=
  [ch '\\', ch 'u', hexDigit (v / 4096), hexDigit (v / 256 % 16), hexDigit (v / 16 % 16), hexDigit (v % 16)]

/-- `U16_LEAD` and `U16_TRAIL` of ICU. -/
def leadOf (c : Nat) : Nat := 0xD800 + (c - 0x10000) / 0x400

def trailOf (c : Nat) : Nat := 0xDC00 + c % 0x400

/-- A code point as escapes (json_stream.cc 963-967, 975-980). -/
def asciiEscape (c : Nat) : List Nat :=
  if c < 0x10000 then escape4 c else escape4 (leadOf c) ++ escape4 (trailOf c)

/-- What `EmitJsonStringCodePoint` (json_stream.cc 916-985) emits for a code point that is no
surrogate and that can be encoded. -/
def scalarText (ensureAscii : Bool) (c : Nat) : List Nat :=
  if c = 8 then [ch '\\', ch 'b']
  else if c = 12 then [ch '\\', ch 'f']
  else if c = 10 then [ch '\\', ch 'n']
  else if c = 13 then [ch '\\', ch 'r']
  else if c = 9 then [ch '\\', ch 't']
  else if c = ch '\\' then [ch '\\', ch '\\']
  else if c = ch '"' then [ch '\\', ch '"']
  else if c < 0x20 then escape4 c
  else if 0x80 ≤ c ∧ ensureAscii = true then asciiEscape c
  else [c]

/-- `EmitJsonStringCodePoint(kReplacementCharacter)` when no surrogate is pending. -/
def Salvage.emitReplacement (o : Options) (s : Salvage) : Salvage :=
  s.emit (scalarText o.ensureAscii replacement)

/-- `EmitJsonStringCodePoint` (json_stream.cc 927-985) after its first statement. -/
def Salvage.emitNext (o : Options) (c : Nat) (s : Salvage) : Salvage :=
  if isLead c then { s with surrogate := some c }
  else if isTrail c then
    match s.surrogate with
    | some l =>
      { s with surrogate := none }.emit
        (if o.ensureAscii then asciiEscape (supplementary l c) else [supplementary l c])
    | none => s.emitReplacement o
  else if 0x110000 ≤ c then s.emitReplacement o
  else s.emit (scalarText o.ensureAscii c)

/-- `EmitJsonStringCodePoint` (json_stream.cc 916-985). -/
def Salvage.emitCodePoint (o : Options) (c : Nat) (s : Salvage) : Salvage :=
  if s.surrogate.isSome ∧ isTrail c = false then
    ({ s with surrogate := none }.emitReplacement o).emitNext o c
  else s.emitNext o c

/-- The loop `for (char32_t value : buffer_) EmitJsonStringCodePoint(value)`. -/
def Salvage.emitCodePoints (o : Options) : List Nat → Salvage → Salvage
  | [], s => s
  | c :: cs, s => Salvage.emitCodePoints o cs (s.emitCodePoint o c)

/-! ### Values and containers -/

/-- `SetStateWithBuffer` (json_stream.cc 756-760). -/
def Salvage.set (state : State) (buffer : List Nat) (s : Salvage) : Salvage :=
  { s with state := state, buffer := buffer }

/-- `AppendToBuffer` (json_stream.cc 769-773). -/
def Salvage.push (c : Nat) (s : Salvage) : Salvage := { s with buffer := s.buffer ++ [c] }

def Salvage.pushIn (c : Option Nat) (s : Salvage) : Salvage :=
  match c with
  | some c => s.push c
  | none => s

/-- The separator that a value needs (json_stream.cc 826-834). -/
def separator (stack : List Container) (key : Bool) : Nat :=
  match stack with
  | [] => nl
  | .object :: _ => if key then ch ',' else ch ':'
  | .array :: _ => ch ','

/-- `StartValue` (json_stream.cc 825-837). -/
def Salvage.startValue (s : Salvage) : Salvage :=
  let s := if s.sep then s.emit [separator s.stack s.key] else s
  { s with sep := false }

/-- `StartNonObjectKeyValue` (json_stream.cc 839-845). -/
def Salvage.startNonKey (s : Salvage) : Salvage :=
  let s := s.startValue
  if s.key then { s.emit [ch '"', ch '"', ch ':'] with key := false } else s

/-- `EndValue` (json_stream.cc 847-853). -/
def Salvage.endValue (s : Salvage) : Salvage :=
  { s.set .base [] with
    sep := true
    key := match s.stack with
      | .object :: _ => !s.key
      | _ => s.key }

/-- `StartArray` (json_stream.cc 861-868). -/
def Salvage.startArray (s : Salvage) : Salvage :=
  let s := s.startNonKey.emit [ch '[']
  { s.set .base [] with stack := .array :: s.stack, sep := false, key := false }

/-- `StartObject` (json_stream.cc 870-877). -/
def Salvage.startObject (s : Salvage) : Salvage :=
  let s := s.startNonKey.emit [ch '{']
  { s.set .base [] with stack := .object :: s.stack, sep := false, key := true }

/-- `EndCurrentContainer` (json_stream.cc 879-901). -/
def Salvage.endContainer (s : Salvage) : Salvage :=
  let s : Salvage :=
    match s.stack with
    | [] => s
    | .array :: st => { s.emit [ch ']'] with stack := st }
    | .object :: st =>
      let s := if s.key then s else s.emit [ch ':', ch 'n', ch 'u', ch 'l', ch 'l']
      { s.emit [ch '}'] with stack := st }
  { s with key := false }.endValue

/-- `StartString` (json_stream.cc 903-906). -/
def Salvage.startString (s : Salvage) : Salvage := s.startValue.emit [ch '"']

/-- `EndString` and `EmitJsonStringEnd` (json_stream.cc 908-911, 986-992). -/
def Salvage.endString (o : Options) (s : Salvage) : Salvage :=
  let s := if s.surrogate.isSome then { s with surrogate := none }.emitReplacement o else s
  (s.emit [ch '"']).endValue

/-- `EmitAtom` (json_stream.cc 913-917). -/
def Salvage.emitAtom (x : List Nat) (s : Salvage) : Salvage := (s.startValue.emit x).endValue

/-! ### Rules -/

/-- `IsJson5Whitespace` (json_stream.cc 187-189): `White_Space` of Unicode, and U+FEFF. -/
def isWhitespace (c : Nat) : Bool :=
  (9 ≤ c && c ≤ 13) || c == 32 || c == 0x85 || c == 0xA0 || c == 0x1680 || (0x2000 ≤ c && c ≤ 0x200A) ||
    c == 0x2028 || c == 0x2029 || c == 0x202F || c == 0x205F || c == 0x3000 || c == 0xFEFF

/-- `IsJson5LineTerminator` (json_stream.cc 191-193). -/
def isLineTerminator (c : Nat) : Bool := c == 10 || c == 13 || c == 0x2028 || c == 0x2029

/-- `container_stack_.size() < options_.max_depth`, where the depth is converted to an
unsigned number. -/
def Salvage.mayNest (o : Options) (s : Salvage) : Bool :=
  decide (o.maxDepth < 0) || decide ((s.stack.length : Int) < o.maxDepth)

/-- `IsValidUnquotedStringNextCodePoint` (json_stream.cc 195-201). -/
def Salvage.unquotedNext (o : Options) (s : Salvage) (c : Option Nat) : Bool :=
  match c with
  | none => false
  | some c =>
    !(isWhitespace c || c == ch ',' || c == ch ':' || c == ch ']' || c == ch '}' || c == ch ')' ||
      (s.mayNest o && (c == ch '[' || c == ch '{' || c == ch '(')))

/-- `absl::ascii_tolower`. -/
def toLower (c : Nat) : Nat := if 65 ≤ c ∧ c ≤ 90 then c + 32 else c

/-- `BufferContainsAnycasePrefixOf` (json_stream.cc 807-819) for a text in lower case. -/
def anycasePrefix : List Nat → List Nat → Bool
  | [], _ => true
  | _ :: _, [] => false
  | b :: bs, a :: as => decide (b < 0x80) && toLower b == a && anycasePrefix bs as

/-- The atoms of the input and of the output (json_stream.cc 349-361). -/
def atoms (allowNan : Bool) : List (List Nat × List Nat) :=
  [([ch 't', ch 'r', ch 'u', ch 'e'], [ch 't', ch 'r', ch 'u', ch 'e']),
   ([ch 'f', ch 'a', ch 'l', ch 's', ch 'e'], [ch 'f', ch 'a', ch 'l', ch 's', ch 'e']),
   ([ch 'n', ch 'u', ch 'l', ch 'l'], [ch 'n', ch 'u', ch 'l', ch 'l']),
   ([ch 'n', ch 'o', ch 'n', ch 'e'], [ch 'n', ch 'u', ch 'l', ch 'l'])] ++
  if allowNan then
    [([ch 'n', ch 'a', ch 'n'], [ch 'N', ch 'a', ch 'N']),
     ([ch '-', ch 'n', ch 'a', ch 'n'], [ch 'N', ch 'a', ch 'N']),
     ([ch '+', ch 'n', ch 'a', ch 'n'], [ch 'N', ch 'a', ch 'N']),
     ([ch 'i', ch 'n', ch 'f', ch 'i', ch 'n', ch 'i', ch 't', ch 'y'],
       [ch 'I', ch 'n', ch 'f', ch 'i', ch 'n', ch 'i', ch 't', ch 'y']),
     ([ch '-', ch 'i', ch 'n', ch 'f', ch 'i', ch 'n', ch 'i', ch 't', ch 'y'],
       [ch '-', ch 'I', ch 'n', ch 'f', ch 'i', ch 'n', ch 'i', ch 't', ch 'y']),
     ([ch '+', ch 'i', ch 'n', ch 'f', ch 'i', ch 'n', ch 'i', ch 't', ch 'y'],
       [ch 'I', ch 'n', ch 'f', ch 'i', ch 'n', ch 'i', ch 't', ch 'y'])]
  else []

/-- `emit_buffered_atom_if_matched` (json_stream.cc 335-348) for all atoms: the output
of the first atom that the buffer is, and whether the buffer is the beginning of an atom. -/
def matchAtoms (buffer : List Nat) : List (List Nat × List Nat) → Option (List Nat) × Bool
  | [] => (none, false)
  | (a, out) :: l =>
    if anycasePrefix buffer a then
      if buffer.length = a.length then (some out, true) else ((matchAtoms buffer l).1, true)
    else matchAtoms buffer l

def isDigit19 (c : Option Nat) : Bool :=
  match c with
  | some c => 49 ≤ c && c ≤ 57
  | none => false

def isDigit09 (c : Option Nat) : Bool :=
  match c with
  | some c => 48 ≤ c && c ≤ 57
  | none => false

/-- `ProcessBaseRules` (json_stream.cc 227-268) with an empty buffer. -/
def baseEmpty (o : Options) (c : Option Nat) (s : Salvage) : Salvage :=
  match c with
  | none => s
  | some c =>
    if isWhitespace c ∨ c = ch ',' ∨ c = ch ':' then s
    else if c = ch '#' then s.set .lineComment []
    else if c = ch '/' then s.push c
    else if c = ch ']' ∨ c = ch '}' ∨ c = ch ')' then s.endContainer
    else if c = ch '{' ∧ s.mayNest o = true then s.startObject
    else if (c = ch '[' ∨ c = ch '(') ∧ s.mayNest o = true then s.startArray
    else if c = ch '"' ∨ c = ch '\'' then s.startString.push c
    else if c = ch '`' then s.startValue.push (ch '`')
    else if s.key = false ∧ (c = ch '-' ∨ c = ch '+') then s.startValue.push c
    else if s.key = false ∧ c = ch '0' then s.startValue.set .numberBuffered [ch '0']
    else if s.key = false ∧ c = ch '.' then
      (s.startValue.emit [ch '0', ch '.']).set .numberDecimal [ch '.']
    else if s.key = false ∧ isDigit19 (some c) = true then (s.startValue.emit [c]).set .numberDecimal []
    else s.push c

/-- The last case of `ProcessBaseRules` (json_stream.cc 327-389), after the input was appended to
the buffer: atoms, prefixes of strings and the beginning of strings without quotes. -/
def baseAtom (o : Options) (s : Salvage) : Salvage × Bool :=
  let m := if s.key then (none, false) else matchAtoms s.buffer (atoms o.allowNan)
  match m.1 with
  | some out => ((s.emitAtom out).set .base [], true)
  | none =>
    if m.2 then (s, true)
    else if s.buffer = [ch 'b', ch '"'] ∨ s.buffer = [ch 'b', ch '\''] ∨ s.buffer = [ch 'u', ch '"'] ∨
        s.buffer = [ch 'u', ch '\''] then (s.set .base [], false)
    else ((s.startString.emitCodePoints o s.buffer).set .unquoted [], true)

/-- `ProcessBaseRules` (json_stream.cc 223-392): the new state, and whether the input was
consumed. -/
def baseRules (o : Options) (c : Option Nat) (s : Salvage) : Salvage × Bool :=
  if s.buffer = [] then (baseEmpty o c s, true)
  else if s.buffer = [ch '/'] ∧ c = some (ch '/') then (s.set .lineComment [], true)
  else if s.buffer = [ch '/'] ∧ c = some (ch '*') then (s.set .blockComment [], true)
  else if s.buffer = [ch '"'] then
    if c = some (ch '"') then (s.push (ch '"'), true) else (s.set .doubleQuote [], false)
  else if s.buffer = [ch '\''] then
    if c = some (ch '\'') then (s.push (ch '\''), true) else (s.set .singleQuote [], false)
  else if s.buffer = [ch '`'] then
    if c = some (ch '`') then (s.push (ch '`'), true) else ((s.emit [ch '"']).set .backtick [], false)
  else if s.buffer = [ch '"', ch '"'] then
    if c = some (ch '"') then (s.set .tripleDouble [], true) else ((s.emit [ch '"']).endValue, false)
  else if s.buffer = [ch '\'', ch '\''] then
    if c = some (ch '\'') then (s.set .tripleSingle [], true) else ((s.emit [ch '"']).endValue, false)
  else if s.buffer = [ch '`', ch '`'] ∧ c = none then (s.emit [ch '"', ch '"'], true)
  else if s.buffer = [ch '-'] ∧ c = some (ch '0') then
    ((s.emit [ch '-']).set .numberBuffered [ch '0'], true)
  else if s.buffer = [ch '-'] ∧ isDigit19 c = true then
    (((s.emit [ch '-']).emit c.toList).set .numberDecimal [], true)
  else if s.buffer = [ch '-'] ∧ c = some (ch '.') then
    ((s.emit [ch '-', ch '0', ch '.']).set .numberDecimal [ch '.'], true)
  else if s.buffer = [ch '+'] ∧ c = some (ch '0') then (s.set .numberBuffered [ch '0'], true)
  else if s.buffer = [ch '+'] ∧ isDigit19 c = true then ((s.emit c.toList).set .numberDecimal [], true)
  else if s.buffer = [ch '+'] ∧ c = some (ch '.') then
    ((s.emit [ch '0', ch '.']).set .numberDecimal [ch '.'], true)
  else if s.unquotedNext o c = false then
    ((s.startString.emitCodePoints o s.buffer).endString o, false)
  else baseAtom o (s.pushIn c)

def isHexIn (c : Option Nat) : Bool :=
  match c with
  | some c => isHex c
  | none => false

def isOctal (c : Option Nat) : Bool :=
  match c with
  | some c => 48 ≤ c && c ≤ 55
  | none => false

def isBinary (c : Option Nat) : Bool :=
  match c with
  | some c => c == 48 || c == 49
  | none => false

/-- `ConvertBufferValueAt(2, base)` as a `char32_t`. -/
def Salvage.bufferCodePoint (s : Salvage) (base : Nat) : Nat := convertDigits base (s.buffer.drop 2) % 2 ^ 32

/-- The end of an escape of digits: its code point is emitted. -/
def Salvage.emitBuffer (o : Options) (base : Nat) (s : Salvage) : Salvage :=
  { s.emitCodePoint o (s.bufferCodePoint base) with buffer := [] }

def Salvage.clear (s : Salvage) : Salvage := { s with buffer := [] }

/-- `ProcessStringRules` (json_stream.cc 415-435) with an empty buffer, in a string with quotes. -/
def stringEmpty (o : Options) (c : Option Nat) (s : Salvage) : Salvage :=
  match c with
  | none => s.endString o
  | some c =>
    if c = ch '\\' then s.push (ch '\\')
    else if (s.state = .doubleQuote ∧ c = ch '"') ∨ (s.state = .singleQuote ∧ c = ch '\'') ∨
        (s.state = .backtick ∧ c = ch '`') then s.endString o
    else if (s.state = .tripleDouble ∧ c = ch '"') ∨ (s.state = .tripleSingle ∧ c = ch '\'') then s.push c
    else s.emitCodePoint o c

/-- The escapes of one letter that stay as they are (json_stream.cc 438-439). -/
def keptEscapes : List Nat := [ch '"', ch '\\', ch '/', ch 'b', ch 'f', ch 'n', ch 'r', ch 't']

/-- The first character of an escape (json_stream.cc 436-474). -/
def stringEscape (o : Options) (c : Option Nat) (s : Salvage) : Salvage :=
  match c with
  | none => s.endString o
  | some c =>
    if c ∈ keptEscapes then (s.emit [ch '\\', c]).clear
    else if c = ch 'a' then (s.emitCodePoint o 7).clear
    else if c = ch 'v' then (s.emitCodePoint o 11).clear
    else if c = ch '`' ∨ c = ch '\'' then (s.emit [c]).clear
    else if c = ch 'u' ∨ c = ch 'U' then s.push c
    else if c = ch 'x' ∨ c = ch 'X' then s.push (ch 'x')
    else if isOctal (some c) then (s.push (ch 'o')).push c
    else if c ≠ 13 ∧ isLineTerminator c = true then s.clear
    else if c = 13 then s.push 13
    else (s.emit [ch '\\', ch '\\', c]).clear

/-- One or two quotes in a string with three quotes (json_stream.cc 484-530). -/
def stringQuotes (o : Options) (q : Nat) (c : Option Nat) (s : Salvage) : Salvage :=
  match c with
  | none => s.endString o
  | some c =>
    if s.buffer = [q] then
      if c = q then s.push q else ((s.emitCodePoint o q).emitCodePoint o c).clear
    else
      if c = q then s.endString o
      else (((s.emitCodePoint o q).emitCodePoint o q).emitCodePoint o c).clear

/-- An escape of at most `n` digits after two characters (json_stream.cc 531-583): `\u`, `\o`, `\x`
and `\U`. -/
def stringDigits (o : Options) (base n : Nat) (isDigit : Option Nat → Bool) (c : Option Nat) (s : Salvage) :
    Salvage × Bool :=
  if isDigit c then
    let s := s.pushIn c
    (if s.buffer.length = n + 2 then s.emitBuffer o base else s, true)
  else (s.emitBuffer o base, false)

/-- `ProcessStringRules` (json_stream.cc 394-611). -/
def stringRules (o : Options) (c : Option Nat) (s : Salvage) : Salvage × Bool :=
  if s.state = .unquoted then
    match c with
    | none => (s.endString o, false)
    | some d => if s.unquotedNext o c = false then (s.endString o, false) else (s.emitCodePoint o d, true)
  else if s.buffer = [] then (stringEmpty o c s, true)
  else if s.buffer = [ch '\\'] then (stringEscape o c s, true)
  else if s.buffer = [ch '\\', 13] then
    if c = some 10 then (s.clear, true) else (s.clear, false)
  else if s.buffer = [ch '"'] ∨ s.buffer = [ch '"', ch '"'] then (stringQuotes o (ch '"') c s, true)
  else if s.buffer = [ch '\''] ∨ s.buffer = [ch '\'', ch '\''] then (stringQuotes o (ch '\'') c s, true)
  else if s.buffer.take 2 = [ch '\\', ch 'u'] then
    if s.buffer = [ch '\\', ch 'u'] ∧ c = some (ch '{') then ((s.clear.push (ch '\\')).push (ch '{'), true)
    else stringDigits o 16 4 isHexIn c s
  else if s.buffer.take 2 = [ch '\\', ch 'o'] then stringDigits o 8 3 isOctal c s
  else if s.buffer.take 2 = [ch '\\', ch 'x'] then stringDigits o 16 2 isHexIn c s
  else if s.buffer.take 2 = [ch '\\', ch 'U'] then
    if isHexIn c = false ∧ s.buffer = [ch '\\', ch 'U'] ∧ c = some (ch '{') then
      ((s.clear.push (ch '\\')).push (ch '{'), true)
    else stringDigits o 16 8 isHexIn c s
  else if s.buffer.take 2 = [ch '\\', ch '{'] then
    if isHexIn c = true ∧ s.buffer.length < 100 then (s.pushIn c, true)
    else (s.emitBuffer o 16, c = some (ch '}'))
  else (s.set .base [], true)

/-- `ProcessCommentRules` (json_stream.cc 613-645). -/
def commentRules (c : Option Nat) (s : Salvage) : Salvage :=
  if s.state = .lineComment then
    match c with
    | some c => if isLineTerminator c then s.set .base [] else s
    | none => s
  else if s.buffer = [] then (if c = some (ch '*') then s.push (ch '*') else s)
  else if c = some (ch '/') then s.set .base []
  else s.clear

/-- Suffixes of numbers that are ignored (json_stream.cc 701, 743). -/
def isSuffix (c : Option Nat) : Bool := c = some (ch 'n') ∨ c = some (ch 'l') ∨ c = some (ch 'L')

def isE (c : Option Nat) : Bool := c = some (ch 'e') ∨ c = some (ch 'E')

/-- The value of a buffered number (json_stream.cc 683-691). -/
def bufferedNumber (buffer : List Nat) : List Nat :=
  if buffer = [] ∨ buffer = [ch '0'] then [ch '0']
  else if buffer.take 2 = [ch '0', ch 'x'] then decimal (convertDigits 16 (buffer.drop 2))
  else if buffer.take 2 = [ch '0', ch 'o'] then decimal (convertDigits 8 (buffer.drop 2))
  else if buffer.take 2 = [ch '0', ch 'b'] then decimal (convertDigits 2 (buffer.drop 2))
  else []

/-- `ProcessNumberRules` (json_stream.cc 654-707) for a buffered number. -/
def bufferedRules (c : Option Nat) (s : Salvage) : Salvage × Bool :=
  if s.buffer = [ch '0'] ∧ isDigit19 c = true then ((s.emit c.toList).set .numberDecimal [], true)
  else if s.buffer = [ch '0'] ∧ c = some (ch '0') then (s, true)
  else if (s.buffer = [] ∨ s.buffer = [ch '0']) ∧ c = some (ch '.') then
    ((s.emit [ch '0', ch '.']).set .numberDecimal [ch '.'], true)
  else if s.buffer = [ch '0'] ∧ (c = some (ch 'x') ∨ c = some (ch 'X')) then (s.push (ch 'x'), true)
  else if s.buffer = [ch '0'] ∧ (c = some (ch 'o') ∨ c = some (ch 'O')) then (s.push (ch 'o'), true)
  else if s.buffer = [ch '0'] ∧ (c = some (ch 'b') ∨ c = some (ch 'B')) then (s.push (ch 'b'), true)
  else if s.buffer.take 2 = [ch '0', ch 'x'] ∧ isHexIn c = true then
    (if s.buffer.length < 100 then s.pushIn c else s, true)
  else if s.buffer.take 2 = [ch '0', ch 'o'] ∧ isOctal c = true then
    (if s.buffer.length < 100 then s.pushIn c else s, true)
  else if s.buffer.take 2 = [ch '0', ch 'b'] ∧ isBinary c = true then
    (if s.buffer.length < 100 then s.pushIn c else s, true)
  else
    let s := s.emit (bufferedNumber s.buffer)
    if isE c then ((s.emit [ch 'e']).set .numberDecimal [ch '.', ch '0', ch 'e'], true)
    else (s.endValue, isSuffix c)

/-- `ProcessNumberRules` (json_stream.cc 708-748) for a decimal number. -/
def decimalRules (c : Option Nat) (s : Salvage) : Salvage × Bool :=
  if isDigit09 c then
    let s := if s.buffer = [ch '.', ch '0', ch 'e'] then s.push (ch '+') else s
    let s := if s.buffer = [ch '.'] ∨ s.buffer = [ch '.', ch '0', ch 'e', ch '+'] then s.push (ch '0') else s
    (s.emit c.toList, true)
  else if s.buffer = [] ∧ c = some (ch '.') then ((s.push (ch '.')).emit [ch '.'], true)
  else if s.buffer = [] ∧ isE c = true then
    (((s.push (ch '.')).push (ch '0')).push (ch 'e') |>.emit [ch 'e'], true)
  else if s.buffer = [ch '.'] ∧ isE c = true then
    ((s.push (ch '0')).push (ch 'e') |>.emit [ch '0', ch 'e'], true)
  else if s.buffer = [ch '.', ch '0'] ∧ isE c = true then ((s.push (ch 'e')).emit [ch 'e'], true)
  else if s.buffer = [ch '.', ch '0', ch 'e'] ∧ (c = some (ch '+') ∨ c = some (ch '-')) then
    ((s.push (ch '+')).emit c.toList, true)
  else
    let s := if s.buffer = [ch '.'] ∨ s.buffer = [ch '.', ch '0', ch 'e'] ∨
        s.buffer = [ch '.', ch '0', ch 'e', ch '+'] then s.emit [ch '0'] else s
    (s.endValue, isSuffix c)

/-- `ProcessNumberRules` (json_stream.cc 647-754). -/
def numberRules (c : Option Nat) (s : Salvage) : Salvage × Bool :=
  if c = some (ch '_') ∨ c = some (ch '\'') then (s, true)
  else if s.state = .numberBuffered then bufferedRules c s
  else decimalRules c s

/-- `ProcessAllRules` (json_stream.cc 203-221). -/
def allRules (o : Options) (c : Option Nat) (s : Salvage) : Salvage × Bool :=
  match s.state with
  | .base => baseRules o c s
  | .lineComment => (commentRules c s, true)
  | .blockComment => (commentRules c s, true)
  | .numberBuffered => numberRules c s
  | .numberDecimal => numberRules c s
  | _ => stringRules o c s

/-- `ProcessInputCodePoint` (json_stream.cc 149-161). -/
def processCodePoint (o : Options) (c : Option Nat) (s : Salvage) : Salvage :=
  let r := allRules o c s
  if r.2 then r.1
  else
    let r := allRules o c r.1
    if r.2 then r.1 else (allRules o c r.1).1

/-! ### Bytes -/

/-- `U8_IS_TRAIL` of ICU. -/
def isTrailByte (c : Nat) : Bool := 0x80 ≤ c && c < 0xC0

/-- `Utf8MultibyteSequenceLength` (json_stream.cc 56-68). -/
def sequenceLength (c : Nat) : Nat :=
  if c < 0xC2 then 1 else if c < 0xE0 then 2 else if c < 0xF0 then 3 else if c < 0xF8 then 4 else 1

/-- `U8_NEXT_OR_FFFD` of ICU for a first byte and as many trail bytes as it needs. -/
def decodeBytes : Bytes → Nat
  | [a] => if a < 0x80 then a else replacement
  | [a, b] => (a - 0xC0) * 0x40 + (b - 0x80)
  | [a, b, c] =>
    let v := (a - 0xE0) * 0x1000 + (b - 0x80) * 0x40 + (c - 0x80)
    if v < 0x800 ∨ (0xD800 ≤ v ∧ v < 0xE000) then replacement else v
  | [a, b, c, d] =>
    let v := (a - 0xF0) * 0x40000 + (b - 0x80) * 0x1000 + (c - 0x80) * 0x40 + (d - 0x80)
    if v < 0x10000 ∨ 0x110000 ≤ v then replacement else v
  | _ => replacement

/-- `ProcessInputByte` (json_stream.cc 129-147). -/
def processByte (o : Options) (s : Salvage) (c : Nat) : Salvage :=
  let s :=
    if isTrailByte c = false ∧ s.utf8Buffer ≠ [] then
      processCodePoint o (some replacement) { s with utf8Buffer := [] }
    else s
  let b := s.utf8Buffer ++ [c]
  if sequenceLength (b.headD 0) > b.length then { s with utf8Buffer := b }
  else processCodePoint o (some (decodeBytes b)) { s with utf8Buffer := [] }

/-- The loop of `ProcessInputEndInternal` (json_stream.cc 166-184). -/
def closeAll : List Container → Bool → Bool → List Nat
  | [], _, _ => []
  | .array :: st, sep, key => ch ']' :: closeAll st sep (if st.head? = some .object then true else key)
  | .object :: st, sep, key =>
    (if key then [] else (if sep then [ch ':'] else []) ++ [ch 'n', ch 'u', ch 'l', ch 'l']) ++
      ch '}' :: closeAll st (if key then sep else false) (if st.head? = some .object then true else key)

/-- `ProcessInputEndInternal` (json_stream.cc 163-185): the output at the end. -/
def finalOutput (o : Options) (s : Salvage) : List Nat :=
  let s := processCodePoint o none s
  s.output ++ closeAll s.stack s.sep s.key

/-- UTF-8 of code points (see `AppendUtf8CodePoint`). -/
def encode (l : List Nat) : Bytes := l.flatMap utf8

/-- One byte of the loop of `Process` and the output it adds (json_stream.cc 117-127, 1012-1016). -/
def salvageStep (o : Options) (s : Salvage) (c : Nat) : Salvage × Bytes :=
  let s := processByte o s c
  ({ s with output := [] }, encode s.output)

/-- `JsonSalvageStreamProcessor`. -/
def salvageProcessor (o : Options) : Processor :=
  loop initial (salvageStep o) (fun s => encode (finalOutput o s))

/-- `kd.json_stream.salvage` (operators/json_stream.cc 206-223). -/
def salvageOp (o : Options) : Processor := salvageProcessor o

end Verif.JsonSalvage
