import Verif.Uuid.Model

/-!
Model of `koladata/internal/op_utils/base62.cc`, of the operators of
`koladata/internal/op_utils/itemid.cc` and of `ObjectIdStr` (`object_id.h`).
-/

namespace Verif.Base62

open Verif.ObjectId Verif.Uuid

/-- `kBase62Length` (base62.cc:29). -/
def kBase62Length : Nat := 22

/-- `kBase62Chars` (base62.cc:30-31). -/
def kBase62Chars : Bytes := chars
  ['0', '1', '2', '3', '4', '5', '6', '7', '8', '9',
   'A', 'B', 'C', 'D', 'E', 'F', 'G', 'H', 'I', 'J', 'K', 'L', 'M',
   'N', 'O', 'P', 'Q', 'R', 'S', 'T', 'U', 'V', 'W', 'X', 'Y', 'Z',
   'a', 'b', 'c', 'd', 'e', 'f', 'g', 'h', 'i', 'j', 'k', 'l', 'm',
   'n', 'o', 'p', 'q', 'r', 's', 't', 'u', 'v', 'w', 'x', 'y', 'z']

/-- `kBase62DigitIndex` (base62.cc:32). -/
def kBase62DigitIndex : Nat := 0
/-- `kBase62UpperCaseIndex` (base62.cc:33). -/
def kBase62UpperCaseIndex : Nat := 10
/-- `kBase62LowerCaseIndex` (base62.cc:34). -/
def kBase62LowerCaseIndex : Nat := 36

/-- `kLowInverse` (base62.cc:37). -/
def kLowInverse : BitVec 64 := 7459615142622190913
/-- `kHighInverse` (base62.cc:39). -/
def kHighInverse : BitVec 64 := 5689246992239689896
/-- `kInverse` (base62.cc:40). -/
def kInverse : BitVec 128 := kHighInverse ++ kLowInverse
/-- `k62Power10` (base62.cc:41). -/
def k62Power10 : BitVec 64 := 839299365868340224
/-- `kBase` (base62.cc:43-44). -/
def kBase : BitVec 128 := BitVec.ofNat 128 kBase62Chars.length

/-- `DivideBy62Power10` (base62.cc:48-51). -/
def divideBy62Power10 (val : BitVec 128) (reminder : BitVec 64) : BitVec 128 :=
  ((val - reminder.setWidth 128) >>> 10) * kInverse

/-- `append_char` (base62.cc:59-65): the buffer `res` and the position `idx`. -/
def appendChar (val : BitVec 64) : Nat → Bytes × Nat → Bytes × Nat
  | 0, st => st
  | stepSize + 1, (res, idx) =>
    let cidx := val % 62
    appendChar (val / 62) stepSize
      (res.set (idx - 1) (kBase62Chars.getD cidx.toNat 0), idx - 1)

/-- `val % k62Power10`, its low 64 bits (base62.cc:67, 71). -/
def reminderOf (val : BitVec 128) : BitVec 64 := (val % k62Power10.setWidth 128).setWidth 64

/-- `Base62Repr` (base62.cc:55-77), `EncodeBase62` (base62.cc:79-81). -/
def base62Repr (val : BitVec 128) : Bytes :=
  let st : Bytes × Nat := (List.replicate kBase62Length (UInt8.ofNat '0'.toNat), kBase62Length)
  let reminder := reminderOf val
  let st := appendChar reminder 10 st
  let val := divideBy62Power10 val reminder
  let reminder := reminderOf val
  let st := appendChar reminder 10 st
  let val := divideBy62Power10 val reminder
  let st := appendChar (val.setWidth 64) 2 st
  st.1

/-- The index of a character (base62.cc:86-93). -/
def charIndex (c : UInt8) : Nat :=
  let n := c.toNat
  if 'a'.toNat ≤ n ∧ n ≤ 'z'.toNat then n - 'a'.toNat + kBase62LowerCaseIndex
  else if 'A'.toNat ≤ n ∧ n ≤ 'Z'.toNat then n - 'A'.toNat + kBase62UpperCaseIndex
  else if '0'.toNat ≤ n ∧ n ≤ '9'.toNat then n - '0'.toNat + kBase62DigitIndex
  else 0

/-- `DecodeBase62` (base62.cc:83-97). -/
def decodeBase62 (text : Bytes) : BitVec 128 :=
  text.foldl (fun res c => res * kBase + BitVec.ofNat 128 (charIndex c)) 0

/-- `DecodeBase62IntoObjectId` (itemid.cc:36-40). -/
def decodeIntoObjectId (s : Bytes) : ObjectId :=
  let decoded := decodeBase62 s
  .ofHighLow (decoded.extractLsb' 64 64) (decoded.extractLsb' 0 64)

/-- `EncodeItemId` on items (itemid.cc:44-55). -/
def encodeItemId : Item → Except Unit Item
  | .missing => .ok .missing
  | .object id => .ok (.text (base62Repr id.toRawInt128))
  | _ => .error ()

/-- `DecodeItemId` on items (itemid.cc:73-83). -/
def decodeItemId : Item → Except Unit Item
  | .missing => .ok .missing
  | .text s => .ok (.object (decodeIntoObjectId s))
  | _ => .error ()

/-- `DataSliceImpl::dtype() == GetQType<T>()` for a slice with present items: all of them are
of type `T` (data_slice.h:144-147, `RemoveEmptyValues` data_slice.cc:455-471). Simplification: a slice is the list of
its items. -/
def hasDtype (isT : Item → Bool) (xs : List Item) : Bool :=
  xs.all fun x => x == .missing || isT x

/-- The item is an `ObjectId` (data_slice.h:331). -/
def isObject : Item → Bool
  | .object _ => true
  | _ => false

/-- The item is a `Text` (data_slice.h:338). -/
def isText : Item → Bool
  | .text _ => true
  | _ => false

/-- `is_empty_and_unknown` (data_slice.h:142): no present item. -/
def isEmptyAndUnknown (xs : List Item) : Bool := xs.all (· == .missing)

/-- The dense operator on an optional id (itemid.cc:66-69). -/
def encodePresent : Item → Item
  | .object id => .text (base62Repr id.toRawInt128)
  | _ => .missing

/-- `EncodeItemId` on slices (itemid.cc:57-71). -/
def encodeItemIds (xs : List Item) : Except Unit (List Item) :=
  if isEmptyAndUnknown xs then .ok (List.replicate xs.length .missing)
  else if !hasDtype isObject xs then .error ()
  else .ok (xs.map encodePresent)

/-- The dense operator on an optional text (itemid.cc:94-97). -/
def decodePresent : Item → Item
  | .text s => .object (decodeIntoObjectId s)
  | _ => .missing

/-- `DecodeItemId` on slices (itemid.cc:85-99). -/
def decodeItemIds (xs : List Item) : Except Unit (List Item) :=
  if isEmptyAndUnknown xs then .ok (List.replicate xs.length .missing)
  else if !hasDtype isText xs then .error ()
  else .ok (xs.map decodePresent)

/-- `ObjectIdStr` (object_id.h:524-539). -/
def objectIdStr (id : ObjectId) (showFlagPrefix : Bool) : Bytes :=
  let flagPrefix :=
    if showFlagPrefix then
      if id.isDict then chars ['D', 'i', 'c', 't', ':']
      else if id.isList then chars ['L', 'i', 's', 't', ':']
      else if id.isSchema then chars ['S', 'c', 'h', 'e', 'm', 'a', ':']
      else chars ['E', 'n', 't', 'i', 't', 'y', ':']
    else []
  let idPrefix := if id.isUuid then chars ['#'] else chars ['$']
  flagPrefix ++ idPrefix ++ base62Repr id.toRawInt128

end Verif.Base62
