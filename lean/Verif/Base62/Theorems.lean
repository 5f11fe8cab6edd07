import Verif.Base62.Lemmas
import Verif.ObjectId.IdTheorems
import Verif.ObjectId.KindTheorems

/-! C30: base62 numerals of item ids. -/

namespace Verif.Base62

open Verif.ObjectId Verif.Uuid

/-- The encoding is the numeral of 22 digits: the character at place `i` is the digit with
weight `62 ^ (21 - i)`. -/
theorem C30_positional (v : BitVec 128) :
    (base62Repr v).length = 22 ∧
      ∀ i, i < 22 → (base62Repr v)[i]? = some (digitChar (v.toNat / 62 ^ (21 - i) % 62)) := by
  rw [base62Repr_eq]
  refine ⟨by simp [digits_length], ?_⟩
  intro i hi
  rw [List.getElem?_map, digits_get 22 _ i hi]
  rfl

/-- Decoding a string of digits of any length gives its number modulo 2^128. -/
theorem C30_decode (ds : List Nat) (h : ∀ d ∈ ds, d < 62) :
    (decodeBase62 (ds.map digitChar)).toNat = numeral ds % 2 ^ 128 := by
  rw [decode_numeral ds h, BitVec.toNat_ofNat]

/-- Any other character counts as the digit 0. -/
theorem C30_decode_other (s t : Bytes) (c : UInt8) (h : ¬ IsDigit c) :
    decodeBase62 (s ++ c :: t) = decodeBase62 (s ++ digitChar 0 :: t) := by
  unfold decodeBase62
  rw [List.foldl_append, List.foldl_append, List.foldl_cons, List.foldl_cons,
    charIndex_other c h, charIndex_digit 0 (by omega)]

/-- Decoding gives back what was encoded. -/
theorem C30_round_trip (v : BitVec 128) : decodeBase62 (base62Repr v) = v := by
  rw [base62Repr_eq, decode_numeral _ (digits_lt 22 _), numeral_digits]
  apply BitVec.eq_of_toNat_eq
  have := v.isLt
  rw [BitVec.toNat_ofNat, Nat.mod_eq_of_lt (a := v.toNat) (by omega), Nat.mod_eq_of_lt this]

/-- Every string of 22 digits whose number is below 2^128 is an encoding. -/
theorem C30_onto (ds : List Nat) (h : ∀ d ∈ ds, d < 62) (hl : ds.length = 22)
    (hv : numeral ds < 2 ^ 128) : base62Repr (decodeBase62 (ds.map digitChar)) = ds.map digitChar := by
  rw [base62Repr_eq, decode_numeral ds h, BitVec.toNat_ofNat, Nat.mod_eq_of_lt hv, ← hl,
    digits_numeral ds h]

/-- The order of the strings is the order of the numbers. -/
theorem C30_order (a b : BitVec 128) :
    bytesLt (base62Repr a) (base62Repr b) = true ↔ a.toNat < b.toNat := by
  rw [base62Repr_eq, base62Repr_eq,
    bytesLt_map _ _ (digits_lt 22 _) (digits_lt 22 _) (by simp [digits_length]),
    numeral_digits, numeral_digits]
  have ha := a.isLt
  have hb := b.isLt
  rw [Nat.mod_eq_of_lt (by omega), Nat.mod_eq_of_lt (by omega)]

/-- `decode_itemid(encode_itemid(x))` is `x` for ids and missing items. -/
theorem C30_item_round_trip :
    (∀ o : ObjectId, ∃ s, encodeItemId (.object o) = .ok (.text s) ∧
      decodeItemId (.text s) = .ok (.object o)) ∧
    encodeItemId .missing = .ok .missing ∧ decodeItemId .missing = .ok .missing := by
  refine ⟨fun o => ⟨_, rfl, ?_⟩, rfl, rfl⟩
  show Except.ok (Item.object (decodeIntoObjectId (base62Repr o.toRawInt128))) = _
  unfold decodeIntoObjectId
  rw [C30_round_trip]
  obtain ⟨h1, h2⟩ := words_of_raw o.high64 o.low64 o.toRawInt128 rfl
  simp only [h1, h2]
  rw [(C32_words_round_trip o 0 0).1]

/-- `encode_itemid` refuses all but ids and missing items, `decode_itemid` all but texts and
missing items. -/
theorem C30_item_errors (x : Item) :
    ((∃ o, x = .object o) ∨ x = .missing ∨ encodeItemId x = .error ()) ∧
      ((∃ s, x = .text s) ∨ x = .missing ∨ decodeItemId x = .error ()) := by
  cases x <;> simp [encodeItemId, decodeItemId]

/-- On slices: ids and texts are treated item by item, missing items stay missing, and a
slice with any other item is refused. -/
theorem C30_slices (xs : List Item) :
    ((∀ x ∈ xs, x = .missing ∨ ∃ o, x = .object o) → ∃ ys, encodeItemIds xs = .ok ys ∧
      ys.length = xs.length ∧ (∀ (i : Nat) x, xs[i]? = some x →
        ∃ y, ys[i]? = some y ∧ encodeItemId x = .ok y) ∧ decodeItemIds ys = .ok xs) ∧
    ((∃ x ∈ xs, x ≠ .missing ∧ ∀ o, x ≠ .object o) → encodeItemIds xs = .error ()) ∧
    ((∀ x ∈ xs, x = .missing ∨ ∃ s, x = .text s) → ∃ ys, decodeItemIds xs = .ok ys ∧
      ys.length = xs.length ∧ ∀ (i : Nat) x, xs[i]? = some x →
        ∃ y, ys[i]? = some y ∧ decodeItemId x = .ok y) ∧
    ((∃ x ∈ xs, x ≠ .missing ∧ ∀ s, x ≠ .text s) → decodeItemIds xs = .error ()) := by
  refine ⟨?_, ?_, ?_, ?_⟩
  · intro h
    have e := encodeItemIds_ok xs h
    refine ⟨_, e, by simp, ?_, ?_⟩
    · intro i x hx
      refine ⟨_, by rw [List.getElem?_map, hx]; rfl, ?_⟩
      rcases h x (List.mem_of_getElem? hx) with rfl | ⟨o, rfl⟩ <;> rfl
    · rw [decodeItemIds_ok]
      · rw [List.map_map]
        congr 1
        conv => rhs; rw [← List.map_id xs]
        apply List.map_congr_left
        intro x hx
        rcases h x hx with rfl | ⟨o, rfl⟩
        · rfl
        · obtain ⟨s, hs, hd⟩ := C30_item_round_trip.1 o
          simp only [encodeItemId, Except.ok.injEq, Item.text.injEq] at hs
          simp only [decodeItemId, Except.ok.injEq] at hd
          simp only [Function.comp, encodePresent, decodePresent, id, hs, hd]
      · intro y hy
        obtain ⟨x, hx, rfl⟩ := List.mem_map.1 hy
        rcases h x hx with rfl | ⟨o, rfl⟩
        · exact .inl rfl
        · exact .inr ⟨_, rfl⟩
  · rintro ⟨x, hx, h1, h2⟩
    exact encodeItemIds_error xs x hx h1 h2
  · intro h
    have e := decodeItemIds_ok xs h
    refine ⟨_, e, by simp, ?_⟩
    intro i x hx
    refine ⟨_, by rw [List.getElem?_map, hx]; rfl, ?_⟩
    rcases h x (List.mem_of_getElem? hx) with rfl | ⟨o, rfl⟩ <;> rfl
  · rintro ⟨x, hx, h1, h2⟩
    exact decodeItemIds_error xs x hx h1 h2

/-- Encoding and decoding again the other way: for the 22 digit numerals below 2^128. -/
theorem C30_item_onto (ds : List Nat) (h : ∀ d ∈ ds, d < 62) (hl : ds.length = 22)
    (hv : numeral ds < 2 ^ 128) :
    ∃ o, decodeItemId (.text (ds.map digitChar)) = .ok (.object o) ∧
      encodeItemId (.object o) = .ok (.text (ds.map digitChar)) := by
  refine ⟨_, rfl, ?_⟩
  show Except.ok (Item.text (base62Repr (decodeIntoObjectId (ds.map digitChar)).toRawInt128)) = _
  have : (decodeIntoObjectId (ds.map digitChar)).toRawInt128 = decodeBase62 (ds.map digitChar) := by
    unfold decodeIntoObjectId ObjectId.toRawInt128
    have h := C32_words_round_trip (.ofHighLow 0 0)
      ((decodeBase62 (ds.map digitChar)).extractLsb' 64 64)
      ((decodeBase62 (ds.map digitChar)).extractLsb' 0 64)
    simp only [h.2.1, h.2.2]
    exact raw_of_words _
  rw [this, C30_onto ds h hl hv]

/-- The strings shown for ids: the number can be read off their last 22 characters, the
character before it shows uuids, and the prefix, if it is shown, the kind. So different ids
are shown differently. -/
theorem C30_shown_ids (o : ObjectId) (flag : Bool) :
    ∃ pre, objectIdStr o flag = pre ++ base62Repr o.toRawInt128 ∧
      (pre.getLast? = some (UInt8.ofNat '#'.toNat) ↔ o.isUuid = true) ∧
      (pre.getLast? = some (UInt8.ofNat '$'.toNat) ↔ o.isUuid = false) ∧
      (flag = false → pre.length = 1) ∧
      (flag = true → (pre.take 5 = chars ['D', 'i', 'c', 't', ':'] ↔ o.isDict = true) ∧
        (pre.take 5 = chars ['L', 'i', 's', 't', ':'] ↔ o.isList = true) ∧
        (pre.take 7 = chars ['S', 'c', 'h', 'e', 'm', 'a', ':'] ↔ o.isSchema = true)) := by
  obtain ⟨_, _, h1, _, h2, h3, _⟩ := C46_kinds_are_exclusive o
  unfold objectIdStr
  refine ⟨_, rfl, ?_⟩
  cases hd : o.isDict <;> cases hl : o.isList <;> cases hs : o.isSchema <;> cases hu : o.isUuid <;>
    cases flag <;>
    first
    | (simp only [Bool.false_eq_true, if_false, if_true]; decide +kernel)
    | (rw [hd, hl] at h1; exact absurd (And.intro rfl rfl) h1)
    | (rw [hs, hl] at h2; exact absurd (And.intro rfl rfl) h2)
    | (rw [hs, hd] at h3; exact absurd (And.intro rfl rfl) h3)

/-- Different ids are shown differently. -/
theorem C30_shown_ids_differ (o p : ObjectId) (flag flag' : Bool)
    (h : objectIdStr o flag = objectIdStr p flag') : o = p := by
  obtain ⟨pre, e, _⟩ := C30_shown_ids o flag
  obtain ⟨pre', e', _⟩ := C30_shown_ids p flag'
  rw [e, e'] at h
  have h1 := (C30_positional o.toRawInt128).1
  have h2 := (C30_positional p.toRawInt128).1
  have h3 := (List.append_inj' h (by rw [h1, h2])).2
  have h4 := congrArg decodeBase62 h3
  rw [C30_round_trip, C30_round_trip] at h4
  exact ((C32_order o p).2.1).1 h4

/-- Example: 62^10 + 1 and the greatest id. -/
example : base62Repr 839299365868340225 = chars "0000000000010000000001".toList ∧
    base62Repr (BitVec.allOnes 128) = chars "7n42DGM5Tflk9n8mt7Fhc7".toList := by decide +kernel

/-- Example: a slice with ids and a missing item is encoded, one with a number is not. -/
example : (match encodeItemIds [.object (.ofHighLow 0 63), .missing] with
      | .ok ys => ys == [.text (chars "0000000000000000000011".toList), .missing]
      | .error _ => false) = true ∧
    (match encodeItemIds [.object (.ofHighLow 0 63), .int32 1] with
      | .ok _ => false
      | .error _ => true) = true ∧
    objectIdStr (.ofHighLow 0 63) true = chars "Entity:$0000000000000000000011".toList := by
  decide +kernel

end Verif.Base62
