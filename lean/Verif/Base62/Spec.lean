/-! What a base62 numeral denotes. -/

namespace Verif.Base62

/-- The digits, in the order of their values. -/
def alphabet : List Char := "0123456789ABCDEFGHIJKLMNOPQRSTUVWXYZabcdefghijklmnopqrstuvwxyz".toList

/-- The character for the digit `d`. -/
def digitChar (d : Nat) : UInt8 := UInt8.ofNat (alphabet.getD d ' ').toNat

/-- A character of the alphabet. -/
def IsDigit (c : UInt8) : Prop := ∃ d, d < 62 ∧ c = digitChar d

/-- The number that a numeral denotes, from the values of its digits. -/
def numeral (ds : List Nat) : Nat := ds.foldl (fun n d => n * 62 + d) 0

end Verif.Base62
