import Verif.S11n.Model

/-!
Which messages stand for which items.
-/

namespace Verif.S11n

variable {P Q : Type}

/-- The byte of an item in `types_buffer`. -/
def typeByte : Cell P Q → Nat
  | .unset => 255
  | .removed => 254
  | .objectId _ _ => 1
  | .plain .i32 _ => 2
  | .plain .i64 _ => 3
  | .plain .f32 _ => 4
  | .plain .f64 _ => 5
  | .plain .boolean _ => 6
  | .unit => 7
  | .plain .text _ => 8
  | .plain .bytes _ => 9
  | .plain .dtype _ => 10
  | .exprQuote _ => 11

/-- A stored value. -/
inductive Raw (P : Type) where
  | id (hi lo : BitVec 64)
  | value (v : P)
deriving DecidableEq

/-- The values of a type in a message. -/
def Part.stored (k : Kind) (p : Part P) : List (Raw P) :=
  match k with
  | .objectId => List.zipWith .id p.hi p.lo
  | .plain t => (p.field t).map .value
  | .unit => []
  | .exprQuote => []

/-- The values to store for a type: ids as differences from the id before (from 0 for the first),
nothing for units and expressions. -/
def toStore (k : Kind) : BitVec 64 → BitVec 64 → List (Cell P Q) → List (Raw P)
  | _, _, [] => []
  | hi, lo, .objectId hi' lo' :: cs =>
    if k = .objectId then .id (hi' - hi) (lo' - lo) :: toStore k hi' lo' cs else toStore k hi lo cs
  | hi, lo, .plain t v :: cs =>
    if k = .plain t then .value v :: toStore k hi lo cs else toStore k hi lo cs
  | hi, lo, _ :: cs => toStore k hi lo cs

/-- The expressions. -/
def exprsOf : List (Cell P Q) → List Q
  | [] => []
  | .exprQuote q :: cs => q :: exprsOf cs
  | _ :: cs => exprsOf cs

/-- A message with input values stands for these items: the types are their types, the expressions come first
among the input values, the other parts of the message follow; the parts hold the values of each type one after
the other, as many high as low parts of ids. -/
def Encodes (K : Kit P) (m : Compact P) (inputs : List (Input P Q)) (cells : List (Cell P Q)) : Prop :=
  m.types = cells.map typeByte ∧
  (∀ v, .plain .dtype v ∈ cells → K.isDType v = true) ∧
  ∃ extras : List (Part P), extras.length = m.extraPartCount ∧
    inputs = (exprsOf cells).map .exprQuote ++ extras.map .bytes ∧
    ∀ k : Kind,
      ((∃ c ∈ cells, c.kind = some k) →
        (k = .objectId → ∀ p ∈ m.part :: extras, p.hi.length = p.lo.length) ∧
        (m.part :: extras).flatMap (Part.stored k) = toStore k 0 0 cells) ∧
      ((¬ ∃ c ∈ cells, c.kind = some k) →
        (k = .objectId → m.part.hi.length = m.part.lo.length) ∧ m.part.stored k = [])

/-- The bytes that an item is counted with. -/
def cost (len : P → Nat) : Cell P Q → Nat
  | .objectId _ _ => 16
  | .plain .i32 _ => 4
  | .plain .i64 _ => 8
  | .plain .f32 _ => 4
  | .plain .f64 _ => 8
  | .plain .boolean _ => 1
  | .plain .text v => len v + 1
  | .plain .bytes v => len v + 1
  | .plain .dtype _ => 1
  | .unit => 0
  | .exprQuote _ => 0
  | .unset => 0
  | .removed => 0

/-- The bytes of a message, counted in this way. -/
def partCost (len : P → Nat) (p : Part P) : Nat :=
  16 * p.hi.length + 4 * (p.field .i32).length + 8 * (p.field .i64).length + 4 * (p.field .f32).length +
    8 * (p.field .f64).length + (p.field .boolean).length + ((p.field .text).map fun v => len v + 1).sum +
    ((p.field .bytes).map fun v => len v + 1).sum + (p.field .dtype).length

end Verif.S11n
