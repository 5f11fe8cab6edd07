/-!
Model of `TypesBuffer` (koladata/internal/types_buffer.{h,cc}): one byte with the index of the type for each
element of an array, and its bitmaps.

`T` are the ids of types. The SSE2 code of `GetEqualityMask16` is taken for equal to the loop beside it.
Not modelled: `ToPresenceBitmap` (a builder of bitmaps of Arolla) and `id_to_type` (a table).
-/

namespace Verif.TypesBuffer

/-- An element of `id_to_typeidx` (types_buffer.h:44-45). -/
abbrev Byte := BitVec 8

/-- `arolla::bitmap::Word`, with `kWordBitCount == 32` (types_buffer.cc:48). -/
abbrev Word := BitVec 32

/-- `kUnset` (types_buffer.h:37). -/
def kUnset : Byte := 0xff#8

/-- `kRemoved` (types_buffer.h:38). -/
def kRemoved : Byte := 0xfe#8

/-- `is_present_type_idx` (types_buffer.h:40-42). -/
def isPresent (c : Byte) : Bool := c &&& 0x80#8 == 0#8

/-- A condition as a word (types_buffer.cc:39, 68-70). -/
def bit (b : Bool) : Word := if b then 1#32 else 0#32

/-- `GetEqualityMask16` (types_buffer.cc:30-43). -/
def eqMask16 (data : List Byte) (t : Byte) : Word :=
  (List.range 16).foldl (fun mask i => mask ||| bit (data[i]? = some t) <<< i) 0#32

/-- A word of the first loop (types_buffer.cc:56-60). -/
def fullWord (inv : Bool) (data : List Byte) (t : Byte) : Word :=
  if inv then ~~~ (eqMask16 data t ||| eqMask16 (data.drop 16) t <<< 16)
  else eqMask16 data t ||| eqMask16 (data.drop 16) t <<< 16

/-- The last word (types_buffer.cc:65-72). -/
def lastWord (inv : Bool) (data : List Byte) (t : Byte) : Word :=
  (List.range data.length).foldl
    (fun mask i => mask ||| bit (if inv then data[i]? ≠ some t else data[i]? = some t) <<< i) 0#32

/-- The first loop, with the words and the offset after it (types_buffer.cc:53-61). The argument bounds the
number of rounds. -/
def fullWords (inv : Bool) (data : List Byte) (t : Byte) : Nat → Nat → List Word × Nat
  | 0, offset => ([], offset)
  | n + 1, offset =>
    if offset + 31 < data.length then
      (fullWord inv (data.drop offset) t :: (fullWords inv data t n (offset + 32)).1,
        (fullWords inv data t n (offset + 32)).2)
    else ([], offset)

/-- `ToBitmapImpl` (types_buffer.cc:45-75). The words are a list: that `bitmask.back()` is the word after
those of the loop is a part of the theorem (the number of words). -/
def toBitmap (inv : Bool) (data : List Byte) (t : Byte) : List Word :=
  if 0 < data.length - (fullWords inv data t data.length 0).2 then
    (fullWords inv data t data.length 0).1 ++
      [lastWord inv (data.drop (fullWords inv data t data.length 0).2) t]
  else (fullWords inv data t data.length 0).1

/-- `ToNotRemovedBitmap` (types_buffer.h:99-101). -/
def notRemoved (data : List Byte) : List Word := toBitmap true data kRemoved

/-- `ToSetBitmap` (types_buffer.h:104-106). -/
def setBits (data : List Byte) : List Word := toBitmap true data kUnset

/-- A buffer (types_buffer.h:44-48). -/
structure Buf (T : Type) where
  codes : List Byte
  types : List T

variable {T : Type} [DecidableEq T]

/-- `InitAllUnset` (types_buffer.h:53-56). -/
def initAllUnset (b : Buf T) (size : Nat) : Buf T := { b with codes := List.replicate size kUnset }

/-- `id_to_scalar_typeid` (types_buffer.h:58-66); `none` is the type of missing values. -/
def typeOf (b : Buf T) (j : Nat) : Option T :=
  match b.codes[j]? with
  | none => none
  | some c => if isPresent c then b.types[c.toNat]? else none

/-- The loop of `get_or_add_typeidx` (types_buffer.h:76-80). -/
def findIdx (t : T) : List T → Nat → Option Nat
  | [], _ => none
  | u :: rest, i => if u = t then some i else findIdx t rest (i + 1)

/-- `get_or_add_typeidx` (types_buffer.h:75-83). -/
def getOrAdd (b : Buf T) (t : T) : Buf T × Byte :=
  match findIdx t b.types 0 with
  | some i => (b, BitVec.ofNat 8 i)
  | none => ({ b with types := b.types ++ [t] }, BitVec.ofNat 8 b.types.length)

/-- `id_to_typeidx[j] = c`, as users of the buffer do with `get_or_add_typeidx` (types_buffer.h:44-45). -/
def setCode (b : Buf T) (j : Nat) (c : Byte) : Buf T := { b with codes := b.codes.set j c }

end Verif.TypesBuffer
