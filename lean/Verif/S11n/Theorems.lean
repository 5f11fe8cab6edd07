import Verif.S11n.SoundLoop
import Verif.S11n.Blocks

/-!
C91: saved slices are loaded with the same items.
-/

namespace Verif.S11n

variable {P Q : Type}

/-- C91: loading gives items exactly for the messages that stand for them, however the values are cut into
parts. -/
theorem C91_decode (K : Kit P) (m : Compact P) (inputs : List (Input P Q)) (cells : List (Cell P Q)) :
    decode K m inputs = .ok cells ↔ Encodes K m inputs cells :=
  ⟨decode_inv, decode_ok⟩

/-- C91: what is saved stands for the items, whatever the order of the types and the limit of the blocks. -/
theorem C91_encode (K : Kit P) (limit : Nat) (order : List Kind) (cells : List (Cell P Q))
    (hnd : order.Nodup) (hall : ∀ c ∈ cells, ∀ k, c.kind = some k → k ∈ order)
    (hd : ∀ v, .plain .dtype v ∈ cells → K.isDType v = true) :
    Encodes K (encode K limit order cells).1 (encode K limit order cells).2 cells :=
  encode_ok K limit order cells hnd hall hd

/-- C91: what is saved is loaded: the same items at the same positions, missing and removed ones included. -/
theorem C91_roundtrip (K : Kit P) (limit : Nat) (order : List Kind) (cells : List (Cell P Q))
    (hnd : order.Nodup) (hall : ∀ c ∈ cells, ∀ k, c.kind = some k → k ∈ order)
    (hd : ∀ v, .plain .dtype v ∈ cells → K.isDType v = true) :
    decode K (encode K limit order cells).1 (encode K limit order cells).2 = .ok cells :=
  decode_ok (encode_ok K limit order cells hnd hall hd)

/-- C91: a part is as large as the limit and one item at most, all but the last are larger than the limit, and
none but the main one is empty. -/
theorem C91_blocks (K : Kit P) (limit M : Nat) (order : List Kind) (cells : List (Cell P Q))
    (hc : ∀ c ∈ cells, cost K.length c ≤ M) :
    ∃ (extras : List (Part P)) (exprs : List Q),
      (encode K limit order cells).2 = exprs.map .exprQuote ++ extras.map .bytes ∧
      (encode K limit order cells).1.extraPartCount = extras.length ∧
      (∀ p ∈ (encode K limit order cells).1.part :: extras, partCost K.length p ≤ limit + M) ∧
      (∀ p ∈ ((encode K limit order cells).1.part :: extras).dropLast, limit < partCost K.length p) ∧
      ∀ p ∈ extras, 0 < partCost K.length p :=
  encode_sizes K limit M order cells hc

/-! ### Examples -/

/-- A kit: numbers are values, the types are those below 20. -/
def exKit : Kit Nat := ⟨fun n => n, fun n => n < 20⟩

/-- Items of several types, missing and removed ones among them. -/
def exCells : List (Cell Nat Nat) :=
  [.plain .i32 5, .unset, .objectId 10 7, .removed, .exprQuote 3, .plain .text 4, .unit, .objectId 10 5,
    .plain .i32 6, .plain .dtype 2]

/-- An order of the types. -/
def exOrder : List Kind := [.plain .text, .objectId, .plain .i32, .exprQuote, .unit, .plain .dtype]

/-- The hypotheses of `C91_roundtrip` hold. -/
example : exOrder.Nodup ∧ (∀ c ∈ exCells, ∀ k, c.kind = some k → k ∈ exOrder) ∧
    (∀ v, .plain .dtype v ∈ exCells → exKit.isDType v = true) := by
  refine ⟨by decide, ?_, ?_⟩
  · intro c hc k hk
    simp only [exCells, List.mem_cons, List.not_mem_nil, or_false] at hc
    rcases hc with rfl | rfl | rfl | rfl | rfl | rfl | rfl | rfl | rfl | rfl <;>
      simp [Cell.kind] at hk <;> subst hk <;> simp [exOrder]
  · intro v hv
    simp [exCells] at hv
    subst hv
    rfl

/-- With a limit of 10 there are two more parts. -/
example : (encode exKit 10 exOrder exCells).1.extraPartCount = 2 ∧
    (encode exKit 10 exOrder exCells).1.types = [2, 255, 1, 254, 11, 8, 7, 1, 2, 10] ∧
    (encode exKit 10 exOrder exCells).2.length = 3 ∧
    (encode exKit 10 exOrder exCells).1.part.hi = [10] := by
  decide +kernel

/-- The ids are differences: the second is `10 - 10`, `5 - 7`. -/
example : (encode exKit 1000 exOrder exCells).1.part.hi = [10, 0] ∧
    (encode exKit 1000 exOrder exCells).1.part.lo = [7, -2] := by
  decide +kernel

/-- They are loaded. -/
example : decode exKit (encode exKit 10 exOrder exCells).1 (encode exKit 10 exOrder exCells).2 =
    .ok exCells := by
  rfl

/-- A value too many is an error, for a type that occurs and for one that does not. -/
example : decode (Q := Nat) exKit ⟨[2], 0, Part.empty.add .i32 5 |>.add .i32 6⟩ [] = .error (.unused (.plain .i32)) ∧
    decode (Q := Nat) exKit ⟨[2], 0, Part.empty.add .i32 5 |>.add .f32 6⟩ [] = .error (.unused (.plain .f32)) :=
  ⟨rfl, rfl⟩

/-- But in another part it is not noticed when the type does not occur. -/
example : decode (Q := Nat) exKit ⟨[2], 1, Part.empty.add .i32 5⟩ [.bytes (Part.empty.add .f32 6)] =
    .ok [.plain .i32 5] := rfl

end Verif.S11n
