/-
The processors of chunked streams of JSON text (`kd.json_stream`):
/repo/koladata/internal/op_utils/json_stream.{h,cc} except the salvage processor
(see `Verif.JsonSalvage`), and the code that composes and drives them in
/repo/koladata/operators/json_stream.cc.

A string is a list of bytes, a byte is a number.  Simplified: counters do not
overflow; the stream that is read is a list of items (how readers, writers and
executors work is the topic of `Verif.Stream`).
-/

namespace Verif.JsonStream

abbrev Bytes := List Nat

/-- `ch 'x'` is the code of the character `x`, as a numeral. -/
scoped macro:max "ch " c:char : term => return Lean.Syntax.mkNumLit (toString c.getChar.toNat)

abbrev nl : Nat := 10

/-- `absl::ascii_isspace`. -/
def isSpace (c : Nat) : Bool := c == 32 || (9 ≤ c && c ≤ 13)

/-- `JsonStreamProcessResult` (json_stream.h 32-35). -/
structure Result where
  chunks : List Bytes
  isEnd : Bool
deriving DecidableEq, Repr

/-- `FromSingleStringOutput` (json_stream.cc 110-116). -/
def single (out : Bytes) (isEnd : Bool) : Result :=
  { chunks := if out.isEmpty then [] else [out], isEnd := isEnd }

/-- A processor: an object with a method `Process`. -/
structure Processor where
  St : Type
  init : St
  process : St → Bytes → Bool → St × Result

/-- A loop `for (char c : input_chunk)`: the state and the output after it. -/
def feed {σ : Type} (step : σ → Nat → σ × Bytes) : σ → Bytes → σ × Bytes
  | s, [] => (s, [])
  | s, c :: cs => ((feed step (step s c).1 cs).1, (step s c).2 ++ (feed step (step s c).1 cs).2)

/-- A processor that has such a loop, starts its first chunk with `start` and ends
the last one with `finish`. -/
def loop {σ : Type} (init : σ) (step : σ → Nat → σ × Bytes) (finish : σ → Bytes) : Processor :=
  { St := σ
    init := init
    process := fun s chunk isEnd =>
      ((feed step s chunk).1,
        single ((feed step s chunk).2 ++ if isEnd then finish (feed step s chunk).1 else []) isEnd) }

/-! ### Head -/

/-- The loop of `JsonHeadStreamProcessor::Process` (json_stream.cc 1027-1035): the
line number, the output, and whether it was left by the `return`. -/
def headLoop (n : Int) : Int → Bytes → Int × Bytes × Bool
  | line, [] => (line, [], false)
  | line, c :: cs =>
    if c = nl then
      if line + 1 ≥ n then (line + 1, [c], true)
      else
        let r := headLoop n (line + 1) cs
        (r.1, c :: r.2.1, r.2.2)
    else
      let r := headLoop n line cs
      (r.1, c :: r.2.1, r.2.2)

/-- `JsonHeadStreamProcessor` (json_stream.cc 1021-1037). -/
def headProcessor (n : Int) : Processor :=
  { St := Int
    init := 0
    process := fun line chunk isEnd =>
      if line ≥ n then (line, single [] true)
      else
        let r := headLoop n line chunk
        (r.1, single r.2.1 (r.2.2 || isEnd)) }

/-! ### Prettify -/

structure Pretty where
  depth : Int
  hasContents : Bool
  inString : Bool
  inEscape : Bool
  needsNewline : Bool
deriving DecidableEq, Repr

/-- The loop that appends the indent `container_depth_` times. -/
def indentation (indent : Bytes) (depth : Int) : Bytes :=
  (List.replicate depth.toNat indent).flatten

/-- `emit_newline_and_indent_if_needed` (json_stream.cc 1043-1051). -/
def Pretty.newline (indent : Bytes) (s : Pretty) : Pretty × Bytes :=
  if s.needsNewline then
    ({ s with needsNewline := false }, nl :: indentation indent s.depth)
  else (s, [])

/-- The body of the loop of `JsonPrettifyStreamProcessor::Process` (json_stream.cc
1053-1107). -/
def prettyStep (indent : Bytes) (s : Pretty) (c : Nat) : Pretty × Bytes :=
  if s.inString then
    if s.inEscape then ({ s with inEscape := false }, [c])
    else if c = ch '"' then
      ({ s with inString := false, needsNewline := s.needsNewline || s.depth == 0 }, [c])
    else if c = ch '\\' then ({ s with inEscape := true }, [c])
    else (s, [c])
  else if isSpace c then ({ s with needsNewline := s.needsNewline || s.depth == 0 }, [])
  else if c = ch '"' then
    let r := s.newline indent
    ({ r.1 with inString := true, hasContents := true }, r.2 ++ [c])
  else if c = ch '[' ∨ c = ch '{' then
    let r := s.newline indent
    ({ r.1 with depth := r.1.depth + 1, needsNewline := true, hasContents := false }, r.2 ++ [c])
  else if c = ch ']' ∨ c = ch '}' then
    let s := { s with depth := s.depth - 1 }
    let r := if s.hasContents then ({ s with needsNewline := true } : Pretty).newline indent else (s, [])
    ({ r.1 with needsNewline := true, hasContents := true }, r.2 ++ [c])
  else if c = ch ',' then ({ s with needsNewline := true, hasContents := true }, [c])
  else if c = ch ':' then ({ s with hasContents := true }, [c, 32])
  else
    let r := s.newline indent
    ({ r.1 with hasContents := true }, r.2 ++ [c])

/-- `JsonPrettifyStreamProcessor` (json_stream.h 285-306). -/
def prettyProcessor (indent : Bytes) : Processor :=
  loop { depth := 0, hasContents := false, inString := false, inEscape := false, needsNewline := false }
    (prettyStep indent) (fun _ => [])

/-! ### Compactify -/

structure Compact where
  depth : Int
  inValue : Bool
  inString : Bool
  inEscape : Bool
deriving DecidableEq, Repr

/-- `emit_newline_if_needed` (json_stream.cc 1116-1121). -/
def Compact.newline (s : Compact) : Compact × Bytes :=
  if s.depth = 0 ∧ s.inValue = true then ({ s with inValue := false }, [nl]) else (s, [])

/-- The body of the loop of `JsonCompactifyStreamProcessor::Process` (json_stream.cc
1123-1155). -/
def compactStep (s : Compact) (c : Nat) : Compact × Bytes :=
  if s.inString then
    if s.inEscape then ({ s with inEscape := false }, [c])
    else if c = ch '"' then
      let r := ({ s with inString := false } : Compact).newline
      (r.1, c :: r.2)
    else if c = ch '\\' then ({ s with inEscape := true }, [c])
    else (s, [c])
  else if isSpace c then s.newline
  else if c = ch '"' then ({ s with inValue := true, inString := true }, [c])
  else if c = ch '[' ∨ c = ch '{' then
    let r := s.newline
    ({ r.1 with depth := r.1.depth + 1, inValue := true }, r.2 ++ [c])
  else if c = ch ']' ∨ c = ch '}' then
    let r := ({ s with depth := s.depth - 1 } : Compact).newline
    (r.1, c :: r.2)
  else ({ s with inValue := true }, [c])

/-- The end of the input (json_stream.cc 1156-1158). -/
def compactFinish (s : Compact) : Bytes := if s.inValue then [nl] else []

def compactInit : Compact := { depth := 0, inValue := false, inString := false, inEscape := false }

/-- `JsonCompactifyStreamProcessor`. -/
def compactProcessor : Processor := loop compactInit compactStep compactFinish

/-! ### Selections -/

inductive SelectSt where
  | start
  | openBracket
  | dropLine
  | keepLine
deriving DecidableEq, Repr

/-- `JsonSelectNonemptyObjectsStreamProcessor::Process` (json_stream.cc 1162-1197)
and `JsonSelectNonemptyArraysStreamProcessor::Process` (1199-1234), which differ in the
brackets only. -/
def selectStep (l r : Nat) (s : SelectSt) (c : Nat) : SelectSt × Bytes :=
  match s with
  | .start => if c = l then (.openBracket, []) else (.dropLine, [])
  | .openBracket => if c = r then (.dropLine, []) else (.keepLine, [l, c])
  | .dropLine => if c = nl then (.start, []) else (.dropLine, [])
  | .keepLine => if c = nl then (.start, [c]) else (.keepLine, [c])

def objectsProcessor : Processor := loop .start (selectStep (ch '{') (ch '}')) (fun _ => [])

def arraysProcessor : Processor := loop .start (selectStep (ch '[') (ch ']')) (fun _ => [])

/-- `JsonSelectNonnullStreamProcessor::Process` (json_stream.cc 1236-1263). -/
def nonnullStep (s : SelectSt) (c : Nat) : SelectSt × Bytes :=
  match s with
  | .dropLine => if c = nl then (.start, []) else (.dropLine, [])
  | .keepLine => if c = nl then (.start, [c]) else (.keepLine, [c])
  | _ => if c = ch 'n' then (.dropLine, []) else (.keepLine, [c])

def nonnullProcessor : Processor := loop .start nonnullStep (fun _ => [])

/-! ### Arrays -/

/-- The state of `JsonImplodeArrayStreamProcessor`. -/
structure Implode where
  opened : Bool
  comma : Bool
deriving DecidableEq, Repr

/-- The body of its loop (json_stream.cc 1429-1439). -/
def implodeStep (s : Implode) (c : Nat) : Implode × Bytes :=
  if c = nl then ({ s with comma := true }, [])
  else if s.comma then ({ s with comma := false }, [ch ',', c])
  else (s, [c])

/-- `JsonImplodeArrayStreamProcessor` (json_stream.cc 1422-1448). -/
def implodeProcessor : Processor :=
  { St := Implode
    init := { opened := false, comma := false }
    process := fun s chunk isEnd =>
      let pre := if s.opened then [] else [ch '[']
      let r := feed implodeStep { s with opened := true } chunk
      let post := if isEnd then (if r.1.opened then [ch ']', nl] else [ch '[', ch ']', nl]) else []
      (r.1, single (pre ++ r.2 ++ post) isEnd) }

structure Explode where
  depth : Int
  top : Bool
  hasContents : Bool
  inString : Bool
  inEscape : Bool
deriving DecidableEq, Repr

/-- `emit_c_if_matched` (json_stream.cc 1454-1458). -/
def Explode.emit (s : Explode) (c : Nat) : Bytes := if s.top then [c] else []

/-- The body of the loop of `JsonExplodeArrayStreamProcessor::Process`
(json_stream.cc 1450-1510). -/
def explodeStep (s : Explode) (c : Nat) : Explode × Bytes :=
  if s.inString then
    let s' : Explode :=
      if s.inEscape then { s with inEscape := false }
      else if c = ch '"' then { s with inString := false }
      else if c = ch '\\' then { s with inEscape := true }
      else s
    (s', s.emit c)
  else if c = ch '[' then
    let s := { s with depth := s.depth + 1 }
    if s.depth = 1 then ({ s with top := true, hasContents := false }, [])
    else ({ s with hasContents := true }, s.emit c)
  else if c = ch '{' then ({ s with depth := s.depth + 1, hasContents := true }, s.emit c)
  else if c = ch ',' ∧ s.top = true ∧ s.depth = 1 then (s, [nl])
  else if c = ch ']' then
    let s := { s with depth := s.depth - 1 }
    if s.depth = 0 then
      ({ s with top := false, hasContents := false }, if s.hasContents then [nl] else [])
    else (s, s.emit c)
  else if c = ch '}' then ({ s with depth := s.depth - 1 }, s.emit c)
  else if c = ch '"' then ({ s with inString := true, hasContents := true }, s.emit c)
  else if isSpace c then (s, [])
  else ({ s with hasContents := true }, s.emit c)

def explodeProcessor : Processor :=
  loop { depth := 0, top := false, hasContents := false, inString := false, inEscape := false }
    explodeStep (fun _ => [])

structure Nth where
  depth : Int
  top : Bool
  index : Int
  hasContents : Bool
  emitted : Bool
  inString : Bool
  inEscape : Bool
deriving DecidableEq, Repr

/-- `emit_c_if_matched` (json_stream.cc 1516-1520). -/
def Nth.emit (n : Int) (s : Nth) (c : Nat) : Bytes := if s.top = true ∧ s.index = n then [c] else []

def nullLine : Bytes := [ch 'n', ch 'u', ch 'l', ch 'l', nl]

/-- `emit_top_level_null_if_not_already_done` (json_stream.cc 1522-1527). -/
def Nth.null (s : Nth) : Nth × Bytes :=
  if s.emitted then (s, []) else ({ s with emitted := true }, nullLine)

/-- `end_top_level_value` (json_stream.cc 1529-1534). -/
def Nth.endValue (s : Nth) : Nth :=
  { s with hasContents := false, top := false, emitted := false, index := 0 }

/-- The body of the loop of `JsonGetArrayNthValueStreamProcessor::Process`
(json_stream.cc 1515-1607). -/
def nthStep (n : Int) (s : Nth) (c : Nat) : Nth × Bytes :=
  if s.inString then
    let s' : Nth :=
      if s.inEscape then { s with inEscape := false }
      else if c = ch '"' then { s with inString := false }
      else if c = ch '\\' then { s with inEscape := true }
      else s
    (s', s.emit n c)
  else if c = ch '[' then
    let s := { s with depth := s.depth + 1 }
    if s.depth = 1 then ({ s with top := true, index := 0 }, [])
    else ({ s with hasContents := true }, s.emit n c)
  else if c = ch '{' then
    let r := if s.depth = 0 then s.null else (s, [])
    ({ r.1 with depth := r.1.depth + 1, hasContents := true }, r.2 ++ r.1.emit n c)
  else if c = ch ',' ∧ s.top = true ∧ s.depth = 1 then
    if s.index = n then
      ({ s with emitted := true, index := s.index + 1, hasContents := true }, [nl])
    else ({ s with index := s.index + 1, hasContents := true }, [])
  else if c = ch ']' then
    let s := { s with depth := s.depth - 1 }
    if s.depth = 0 then
      if s.index = n then (s.endValue, if s.hasContents then [nl] else nullLine)
      else if s.index < n then (s.null.1.endValue, s.null.2)
      else (s.endValue, [])
    else (s, s.emit n c)
  else if c = ch '}' then
    let s := { s with depth := s.depth - 1 }
    (if s.depth = 0 then s.endValue else s, s.emit n c)
  else if c = ch '"' then
    let r := if s.depth = 0 then s.null else (s, [])
    ({ r.1 with inString := true, hasContents := true }, r.2 ++ r.1.emit n c)
  else if s.top = true ∧ isSpace c = false then ({ s with hasContents := true }, s.emit n c)
  else if isSpace c = false then if s.depth = 0 then s.null else (s, [])
  else (s, [])

/-- `JsonGetArrayNthValueStreamProcessor` (json_stream.h 560-587). -/
def nthProcessor (n : Int) : Processor :=
  loop { depth := 0, top := false, index := 0, hasContents := false, emitted := false,
         inString := false, inEscape := false } (nthStep n) (fun _ => [])

/-! ### Strings -/

/-- The bytes of `AppendUtf8CodePoint` (json_stream.cc 70-74): the UTF-8 encoding of
a code point; surrogates are replaced by U+FFFD (`icu::UnicodeString::toUTF8String`). -/
def utf8 (c : Nat) : Bytes :=
  if c < 0x80 then [c]
  else if c < 0x800 then [0xC0 + c / 0x40, 0x80 + c % 0x40]
  else if 0xD800 ≤ c ∧ c < 0xE000 then [0xEF, 0xBF, 0xBD]
  else if c < 0x10000 then [0xE0 + c / 0x1000, 0x80 + c / 0x40 % 0x40, 0x80 + c % 0x40]
  else [0xF0 + c / 0x40000, 0x80 + c / 0x1000 % 0x40, 0x80 + c / 0x40 % 0x40, 0x80 + c % 0x40]

def replacement : Nat := 0xFFFD

/-- `IsHexDigit` (json_stream.cc 78-80). -/
def isHex (c : Nat) : Bool :=
  (ch '0' ≤ c && c ≤ ch '9') || (ch 'a' ≤ c && c ≤ ch 'f') || (ch 'A' ≤ c && c ≤ ch 'F')

/-- `DigitValue` (json_stream.cc 86-96). -/
def digitValue (c : Nat) : Nat :=
  if ch '0' ≤ c ∧ c ≤ ch '9' then c - ch '0'
  else if ch 'a' ≤ c ∧ c ≤ ch 'f' then 10 + (c - ch 'a')
  else if ch 'A' ≤ c ∧ c ≤ ch 'F' then 10 + (c - ch 'A')
  else 0

/-- `ConvertDigitSpan` (json_stream.cc 98-108) of all digits of a list, in 64 bits. -/
def convertDigits (base : Nat) (digits : List Nat) : Nat :=
  digits.foldl (fun v c => (v * base + digitValue c) % 2 ^ 64) 0

/-- `U16_IS_LEAD`, `U16_IS_TRAIL` and `U16_GET_SUPPLEMENTARY` of ICU. -/
def isLead (c : Nat) : Bool := 0xD800 ≤ c && c < 0xDC00

def isTrail (c : Nat) : Bool := 0xDC00 ≤ c && c < 0xE000

def supplementary (a b : Nat) : Nat := (a - 0xD800) * 0x400 + (b - 0xDC00) + 0x10000

/-- The state of `JsonUnquoteStreamProcessor`. -/
structure Unquote where
  inString : Bool
  escape : Bytes
deriving DecidableEq, Repr

/-- The body of the loop of `JsonUnquoteStreamProcessor::Process` (json_stream.cc
1614-1688). -/
def unquoteStep (s : Unquote) (c : Nat) : Unquote × Bytes :=
  if s.inString then
    if s.escape = [] then
      if c = ch '"' then ({ s with inString := false }, [])
      else if c = ch '\\' then ({ s with escape := [c] }, [])
      else (s, [c])
    else if s.escape = [ch '\\'] then
      if c = ch '"' ∨ c = ch '\\' ∨ c = ch '/' then ({ s with escape := [] }, [c])
      else if c = ch 'b' then ({ s with escape := [] }, [8])
      else if c = ch 'f' then ({ s with escape := [] }, [12])
      else if c = ch 'n' then ({ s with escape := [] }, [10])
      else if c = ch 'r' then ({ s with escape := [] }, [13])
      else if c = ch 't' then ({ s with escape := [] }, [9])
      else if c = ch 'u' then ({ s with escape := s.escape ++ [c] }, [])
      else (s, [])
    else if c = ch '"' then ({ s with inString := false, escape := [] }, utf8 replacement)
    else if s.escape.length = 5 ∧ isHex c = true then
      let e := s.escape ++ [c]
      let value := convertDigits 16 ((e.drop 2).take 4)
      if isLead value then ({ s with escape := e }, []) else ({ s with escape := [] }, utf8 value)
    else if s.escape.length = 11 ∧ isHex c = true then
      let e := s.escape ++ [c]
      let a := convertDigits 16 ((e.drop 2).take 4)
      let b := convertDigits 16 ((e.drop 8).take 4)
      ({ s with escape := [] }, utf8 (if isTrail b then supplementary a b else replacement))
    else if s.escape.length = 6 ∧ c = ch '\\' then ({ s with escape := s.escape ++ [c] }, [])
    else if s.escape.length = 7 ∧ c = ch 'u' then ({ s with escape := s.escape ++ [c] }, [])
    else if s.escape.length ∈ [2, 3, 4, 8, 9, 10] ∧ isHex c = true then
      ({ s with escape := s.escape ++ [c] }, [])
    else ({ s with escape := [] }, utf8 replacement)
  else if c = ch '"' then ({ s with inString := true }, [])
  else (s, [])

def unquoteInit : Unquote := { inString := false, escape := [] }

def unquoteProcessor : Processor := loop unquoteInit unquoteStep (fun _ => [])

/-- A digit of `absl::StrFormat("%04x", ...)`. -/
def hexDigit (d : Nat) : Nat := if d < 10 then ch '0' + d else ch 'a' + (d - 10)

/-- The body of the loop of `JsonQuoteStreamProcessor::Process` (json_stream.cc
1699-1719). -/
def quoteByte (c : Nat) : Bytes :=
  if c = ch '\\' then [ch '\\', ch '\\']
  else if c = ch '"' then [ch '\\', ch '"']
  else if c = 8 then [ch '\\', ch 'b']
  else if c = 12 then [ch '\\', ch 'f']
  else if c = 10 then [ch '\\', ch 'n']
  else if c = 13 then [ch '\\', ch 'r']
  else if c = 9 then [ch '\\', ch 't']
  else if c < 0x20 then [ch '\\', ch 'u', ch '0', ch '0', hexDigit (c / 16), hexDigit (c % 16)]
  else [c]

/-- `JsonQuoteStreamProcessor` (json_stream.cc 1692-1728): the state is
`emitted_opening_quote_`. -/
def quoteProcessor : Processor :=
  { St := Bool
    init := false
    process := fun opened chunk isEnd =>
      let pre := if opened then [] else [ch '"']
      let post := if isEnd then [ch '"'] else []
      (true, single (pre ++ chunk.flatMap quoteByte ++ post) isEnd) }

/-! ### Values at paths -/

/-- A part of a path: an index or a key. -/
inductive Part where
  | index (i : Int)
  | key (k : Bytes)
deriving DecidableEq, Repr

/-- `JsonExtractValuesStreamProcessor` (json_stream.h 434-458). -/
structure Extract where
  path : List Part           -- `container_path_stack_`, the last element first
  objectKey : Bool
  keyLiteral : Bytes
  inMatch : Bool
  anyMatches : Bool
  matchDepth : Int
  inString : Bool
  inEscape : Bool
deriving DecidableEq, Repr

/-- `JsonExtractValuesOptions` (json_stream.h 411-428). -/
structure ExtractOptions where
  match_ : List Part → Bool
  withPath : Bool

/-- `run_processor(JsonQuoteStreamProcessor{}, key)` (json_stream.cc 1269-1272). -/
def quoteAll (key : Bytes) : Bytes := (quoteProcessor.process quoteProcessor.init key true).2.chunks.flatten

/-- `run_processor(JsonUnquoteStreamProcessor{}, literal)`. -/
def unquoteAll (literal : Bytes) : Bytes :=
  (unquoteProcessor.process unquoteProcessor.init literal true).2.chunks.flatten

/-- Decimal digits, as `absl::StrAppend` writes a number. -/
def decimal (n : Nat) : Bytes :=
  if _h : n < 10 then [ch '0' + n] else decimal (n / 10) ++ [ch '0' + n % 10]
termination_by n

def decimalInt (i : Int) : Bytes := if i < 0 then ch '-' :: decimal i.natAbs else decimal i.natAbs

def partText : Part → Bytes
  | .index i => decimalInt i
  | .key k => quoteAll k

/-- `emit_path_array` (json_stream.cc 1274-1289) for a path, the first part first. -/
def pathArray (path : List Part) : Bytes :=
  [ch '[', ch '['] ++ List.intercalate [ch ','] (path.map partText) ++ [ch ']', ch ',']

/-- `try_start_match_at_current_path` (json_stream.cc 1291-1302). -/
def Extract.tryMatch (o : ExtractOptions) (s : Extract) : Extract × Bytes :=
  if o.match_ s.path.reverse then
    ({ s with inMatch := true, matchDepth := 0, anyMatches := true },
      [if s.anyMatches then ch ',' else ch '['] ++ if o.withPath then pathArray s.path.reverse else [])
  else ({ s with inMatch := false }, [])

/-- `is_in_array`, `is_in_object` (json_stream.cc 1304-1312). -/
def Extract.inArray (s : Extract) : Bool :=
  match s.path with
  | .index _ :: _ => true
  | _ => false

def Extract.inObject (s : Extract) : Bool :=
  match s.path with
  | .key _ :: _ => true
  | _ => false

/-- The end of a match: what is emitted instead of the last character. -/
def pairEnd (o : ExtractOptions) : Bytes := if o.withPath then [ch ']'] else []

/-- The increment of the last index (json_stream.cc 1385). -/
def incIndex : List Part → List Part
  | .index i :: p => .index (i + 1) :: p
  | p => p

/-- The body of the loop of `JsonExtractValuesStreamProcessor::Process` (json_stream.cc
1314-1324) up to the output of the character: matches that start with it. -/
def Extract.before (o : ExtractOptions) (s : Extract) (c : Nat) : Extract × Bytes :=
  let r := if s.path = [] ∧ s.inMatch = false ∧ c ≠ nl then s.tryMatch o else (s, [])
  match r.1.inMatch, r.1.path with
  | false, .index i :: p =>
    if i = -1 ∧ c ≠ ch ']' then
      let r' := ({ r.1 with path := .index 0 :: p } : Extract).tryMatch o
      (r'.1, r.2 ++ r'.2)
    else r
  | _, _ => r

/-- The rest of the body (json_stream.cc 1326-1417): `emitted` is the character that
was pushed and may be popped again. -/
def Extract.char (o : ExtractOptions) (s : Extract) (c : Nat) : Extract × Bytes :=
  let emitted : Bytes := if s.inMatch then [c] else []
  if s.inString then
    let s := if s.inMatch = false ∧ s.objectKey = true then { s with keyLiteral := s.keyLiteral ++ [c] } else s
    if s.inEscape then ({ s with inEscape := false }, emitted)
    else if c = ch '"' then ({ s with inString := false }, emitted)
    else if c = ch '\\' then ({ s with inEscape := true }, emitted)
    else (s, emitted)
  else if c = ch '"' then
    let s := { s with inString := true }
    (if s.inMatch = false ∧ s.objectKey = true then { s with keyLiteral := s.keyLiteral ++ [c] } else s,
      emitted)
  else if c = ch '[' then
    if s.inMatch then ({ s with matchDepth := s.matchDepth + 1 }, emitted)
    else ({ s with path := .index (-1) :: s.path, objectKey := false }, emitted)
  else if c = ch ']' ∨ c = ch '}' then
    if s.inMatch then
      if s.matchDepth = 0 then ({ s with inMatch := false, path := s.path.tail }, pairEnd o)
      else ({ s with matchDepth := s.matchDepth - 1 }, emitted)
    else ({ s with path := s.path.tail }, emitted)
  else if c = ch ',' then
    let r : Extract × Bytes :=
      if s.inMatch = true ∧ s.matchDepth = 0 then ({ s with inMatch := false }, pairEnd o) else (s, emitted)
    if r.1.inMatch then r
    else if r.1.inArray then
      let r' := ({ r.1 with path := incIndex r.1.path } : Extract).tryMatch o
      (r'.1, r.2 ++ r'.2)
    else if r.1.inObject then ({ r.1 with objectKey := true }, r.2)
    else r
  else if c = ch '{' then
    if s.inMatch then ({ s with matchDepth := s.matchDepth + 1 }, emitted)
    else ({ s with path := .key [] :: s.path, objectKey := true }, emitted)
  else if c = ch ':' ∧ s.inObject = true ∧ s.inMatch = false then
    ({ s with path := .key (unquoteAll s.keyLiteral) :: s.path.tail, keyLiteral := [],
              objectKey := false } : Extract).tryMatch o
  else if s.path = [] ∧ c = nl then
    if s.inMatch then ({ s with inMatch := false, anyMatches := false }, pairEnd o ++ [ch ']', nl])
    else ({ s with anyMatches := false }, if s.anyMatches then [ch ']', nl] else [ch '[', ch ']', nl])
  else (s, emitted)

def extractStep (o : ExtractOptions) (s : Extract) (c : Nat) : Extract × Bytes :=
  let r := s.before o c
  let r' := r.1.char o c
  (r'.1, r.2 ++ r'.2)

def extractProcessor (o : ExtractOptions) : Processor :=
  loop { path := [], objectKey := false, keyLiteral := [], inMatch := false, anyMatches := false,
         matchDepth := 0, inString := false, inEscape := false } (extractStep o) (fun _ => [])

/-! ### Chunks of one value -/

/-- The loop of `JsonChunkValuesStreamProcessor::Process` (json_stream.cc 1735-1746):
the buffer and the chunks. -/
def chunkLoop : Bytes → Bytes → Bytes × List Bytes
  | buffer, [] => (buffer, [])
  | buffer, c :: cs =>
    if c = nl then ((chunkLoop [] cs).1, (buffer ++ [c]) :: (chunkLoop [] cs).2)
    else chunkLoop (buffer ++ [c]) cs

/-- `JsonChunkValuesStreamProcessor` (json_stream.cc 1730-1751). -/
def chunkValuesProcessor : Processor :=
  { St := compactProcessor.St × Bytes
    init := (compactProcessor.init, [])
    process := fun s chunk isEnd =>
      let r := compactProcessor.process s.1 chunk isEnd
      let l := chunkLoop s.2 r.2.chunks.flatten
      ((r.1, l.1), { chunks := l.2, isEnd := r.2.isEnd }) }

/-! ### Composition -/

/-- A stage of `CompositeStreamProcessor` (operators/json_stream.cc 137-181): from
the chunks of the previous stage and whether it has ended. -/
structure Stage where
  St : Type
  init : St
  run : St → List Bytes → Bool → St × List Bytes × Bool

/-- The loop over the chunks (operators/json_stream.cc 153-162). -/
def stageLoop (p : Processor) : p.St → List Bytes → p.St × List Bytes × Bool
  | s, [] => (s, [], false)
  | s, c :: cs =>
    let r := p.process s c false
    if r.2.isEnd then (r.1, r.2.chunks, true)
    else
      let r' := stageLoop p r.1 cs
      (r'.1, r.2.chunks ++ r'.2.1, r'.2.2)

/-- One processor as a stage (operators/json_stream.cc 150-173). -/
def Processor.stage (p : Processor) : Stage :=
  { St := p.St
    init := p.init
    run := fun s chunks isEnd =>
      let r := stageLoop p s chunks
      if isEnd && !r.2.2 then
        let r' := p.process r.1 [] true
        (r'.1, r.2.1 ++ r'.2.chunks, true)
      else r }

def Stage.comp (a b : Stage) : Stage :=
  { St := a.St × b.St
    init := (a.init, b.init)
    run := fun s chunks isEnd =>
      let r := a.run s.1 chunks isEnd
      let r' := b.run s.2 r.2.1 r.2.2
      ((r.1, r'.1), r'.2) }

/-- `CompositeStreamProcessor::Process` (operators/json_stream.cc 144-178). -/
def Stage.processor (a : Stage) : Processor :=
  { St := a.St
    init := a.init
    process := fun s chunk isEnd =>
      let r := a.run s [chunk] isEnd
      (r.1, { chunks := r.2.1, isEnd := r.2.2 }) }

/-- Items of the input stream: strings, missing items, and slices that are not
string items. -/
inductive StreamItem where
  | text (s : Bytes)
  | missing
  | other
deriving DecidableEq, Repr

/-- How the output stream is closed. -/
inductive Close where
  | ok
  | error            -- the error of the input stream
  | notString        -- "expected STRING DataItem from input stream"
deriving DecidableEq, Repr

/-- `StreamProcessorHooks::Resume` (operators/json_stream.cc 77-123) over all items
of the input stream, which is then closed by `ok` or by an error: the chunks that are written
and the status with which the output is closed. -/
def drive (p : Processor) : p.St → List StreamItem → Bool → List Bytes × Close
  | s, [], ok => if ok then ((p.process s [] true).2.chunks, .ok) else ([], .error)
  | _, .other :: _, _ => ([], .notString)
  | s, .missing :: items, ok => drive p s items ok
  | s, .text c :: items, ok =>
    let r := p.process s c false
    if r.2.isEnd then (r.2.chunks, .ok)
    else
      let r' := drive p r.1 items ok
      (r.2.chunks ++ r'.1, r'.2)

/-! ### Operators (operators/json_stream.cc 206-367) -/

def keyMatch (key : Bytes) (path : List Part) : Bool := path == [.key key]

def prettifyOp (indent : Bytes) : Processor := prettyProcessor indent
def headOp (n : Int) : Processor := (compactProcessor.stage.comp (headProcessor n).stage).processor
def selectObjectsOp : Processor := (compactProcessor.stage.comp objectsProcessor.stage).processor
def selectArraysOp : Processor := (compactProcessor.stage.comp arraysProcessor.stage).processor
def selectNonnullOp : Processor := (compactProcessor.stage.comp nonnullProcessor.stage).processor
def getKeyValuesOp (key : Bytes) : Processor :=
  (compactProcessor.stage.comp
    (extractProcessor { match_ := keyMatch key, withPath := false }).stage).processor
def getKeyValueOp (key : Bytes) : Processor :=
  ((compactProcessor.stage.comp
    (extractProcessor { match_ := keyMatch key, withPath := false }).stage).comp
      (nthProcessor 0).stage).processor
def implodeOp : Processor := (compactProcessor.stage.comp implodeProcessor.stage).processor
def explodeOp : Processor := explodeProcessor
def nthOp (n : Int) : Processor := nthProcessor n
def unquoteOp : Processor := unquoteProcessor
def quoteOp : Processor := quoteProcessor
def chunkValuesOp : Processor := chunkValuesProcessor

/-- The operator applied to a stream of strings that ends well. -/
def apply (p : Processor) (chunks : List Bytes) : List Bytes :=
  (drive p p.init (chunks.map .text) true).1

end Verif.JsonStream
