/-!
Model of the serialization of the items of a slice (`internal::DataSliceImpl`) as a
`DataSliceCompactProto`: `EncodeDataSliceImpl` in `koladata/s11n/encoder.cc` and
`DecodeDataSliceCompactProto` in `koladata/s11n/decoder.cc`, with the message of
`koladata/s11n/codec.proto`.

Simplified: the values that a message links to (`input_value_indices`) are given themselves, since
arolla's encoder and decoder restore them, and a message serialized as bytes is the message. The allocation
ids of the slice are not modelled.
-/

namespace Verif.S11n

/-- The types whose values are stored in a repeated field (codec.proto:87-97). -/
inductive Plain where
  | i32 | i64 | f32 | f64 | boolean | text | bytes | dtype
deriving DecidableEq, Repr

/-- The types of items (`internal::ScalarVariant`, types.h). -/
inductive Kind where
  | objectId
  | unit
  | exprQuote
  | plain (t : Plain)
deriving DecidableEq, Repr

/-- `ScalarTypeId`, which is the number of the field (encoder.cc:453-525). -/
def Kind.id : Kind → Nat
  | .objectId => 1
  | .plain .i32 => 2
  | .plain .i64 => 3
  | .plain .f32 => 4
  | .plain .f64 => 5
  | .plain .boolean => 6
  | .unit => 7
  | .plain .text => 8
  | .plain .bytes => 9
  | .plain .dtype => 10
  | .exprQuote => 11

/-- `TypesBuffer::kRemoved` (types_buffer.h). -/
def kRemoved : Nat := 254

/-- `TypesBuffer::kUnset` (types_buffer.h). -/
def kUnset : Nat := 255

/-- The type with a number: `is_valid_present_type_idx` (decoder.cc:292-294) and `foreach_type`
(decoder.cc:431-436). -/
def kindOf : Nat → Option Kind
  | 1 => some .objectId
  | 2 => some (.plain .i32)
  | 3 => some (.plain .i64)
  | 4 => some (.plain .f32)
  | 5 => some (.plain .f64)
  | 6 => some (.plain .boolean)
  | 7 => some .unit
  | 8 => some (.plain .text)
  | 9 => some (.plain .bytes)
  | 10 => some (.plain .dtype)
  | 11 => some .exprQuote
  | _ => none

/-- An item of a slice: `P` are the values of the types in repeated fields, `Q` quoted expressions. -/
inductive Cell (P Q : Type) where
  | unset
  | removed
  | objectId (hi lo : BitVec 64)
  | unit
  | exprQuote (q : Q)
  | plain (t : Plain) (v : P)
deriving DecidableEq, Repr

/-- The repeated fields of `DataSliceCompactProto` (codec.proto:86-97). -/
structure Part (P : Type) where
  hi : List (BitVec 64)
  lo : List (BitVec 64)
  field : Plain → List P

/-- A message without values. -/
def Part.empty {P : Type} : Part P := ⟨[], [], fun _ => []⟩

/-- `DataSliceCompactProto` (codec.proto:76-98). -/
structure Compact (P : Type) where
  types : List Nat
  extraPartCount : Nat
  part : Part P

/-- The values of `input_value_indices`: quoted expressions, and extra parts as bytes. -/
inductive Input (P Q : Type) where
  | exprQuote (q : Q)
  | bytes (part : Part P)

/-- The values that the model leaves open: the length of a text, and the numbers of dtypes
(`DType::FromId`). -/
structure Kit (P : Type) where
  length : P → Nat
  isDType : P → Bool

variable {P Q : Type}

/-! ### The encoder -/

/-- What is added to `size_estimation` for a value (encoder.cc:461-509). -/
def Kit.size (K : Kit P) : Plain → P → Nat
  | .i32, _ => 4
  | .i64, _ => 8
  | .f32, _ => 4
  | .f64, _ => 8
  | .boolean, _ => 1
  | .text, v => K.length v + 1
  | .bytes, v => K.length v + 1
  | .dtype, _ => 1

/-- The variables of `EncodeDataSliceImpl`: `proto_types_buffer`, `compact_proto`,
`extra_compact_proto`, whether `current_proto` is the latter, `extra_data_indices`, the expressions among
`input_value_indices`, `size_estimation` and `last_object_id` (encoder.cc:543-590). -/
structure Enc (P Q : Type) where
  types : List Nat
  main : Part P
  extra : Part P
  inExtra : Bool
  extras : List (Part P)
  exprs : List Q
  size : Nat
  lastHi : BitVec 64
  lastLo : BitVec 64

/-- A change of `*current_proto`. -/
def Enc.modifyCurrent (e : Enc P Q) (f : Part P → Part P) : Enc P Q :=
  if e.inExtra then { e with extra := f e.extra } else { e with main := f e.main }

/-- `add_hi` and `add_lo`. -/
def Part.addId (p : Part P) (hi lo : BitVec 64) : Part P :=
  { p with hi := p.hi ++ [hi], lo := p.lo ++ [lo] }

/-- `add_i32` and the others. -/
def Part.add (p : Part P) (t : Plain) (v : P) : Part P :=
  { p with field := fun u => if u = t then p.field u ++ [v] else p.field u }

/-- `AddSliceElementToProto` (encoder.cc:446-530). -/
def addElement (K : Kit P) (e : Enc P Q) : Cell P Q → Enc P Q
  | .objectId hi lo =>
    { e.modifyCurrent fun p => p.addId (hi - e.lastHi) (lo - e.lastLo) with
      size := e.size + 16, lastHi := hi, lastLo := lo }
  | .plain t v => { e.modifyCurrent fun p => p.add t v with size := e.size + K.size t v }
  | .exprQuote q => { e with exprs := e.exprs ++ [q] }
  | .unit => e
  | .unset => e
  | .removed => e

/-- `finalize_current_block` (encoder.cc:568-580). -/
def finalizeBlock (e : Enc P Q) : Enc P Q :=
  if e.inExtra then { e with extras := e.extras ++ [e.extra], extra := .empty, size := 0 }
  else { e with inExtra := true, size := 0 }

/-- The type of an item. -/
def Cell.kind : Cell P Q → Option Kind
  | .unset => none
  | .removed => none
  | .objectId _ _ => some .objectId
  | .unit => some .unit
  | .exprQuote _ => some .exprQuote
  | .plain t _ => some (.plain t)

/-- The callback of `ForEachPresent` (encoder.cc:586-596). -/
def addCell (K : Kit P) (limit : Nat) (k : Kind) (e : Enc P Q) (i : Nat) (c : Cell P Q) : Enc P Q :=
  let e := addElement K { e with types := e.types.set i k.id } c
  if e.size > limit then finalizeBlock e else e

/-- `ForEachPresent` for the array of a type: the items of this type, from position `i` on. -/
def visitKind (K : Kit P) (limit : Nat) (k : Kind) : Nat → List (Cell P Q) → Enc P Q → Enc P Q
  | _, [], e => e
  | i, c :: cs, e =>
    if c.kind = some k then visitKind K limit k (i + 1) cs (addCell K limit k e i c)
    else visitKind K limit k (i + 1) cs e

/-- `VisitValues`: the arrays of the slice, in some order. -/
def visitValues (K : Kit P) (limit : Nat) (cells : List (Cell P Q)) : List Kind → Enc P Q → Enc P Q
  | [], e => e
  | k :: ks, e => visitValues K limit cells ks (visitKind K limit k 0 cells e)

/-- `proto_types_buffer` at the beginning (encoder.cc:545-555). -/
def initialTypes (cells : List (Cell P Q)) : List Nat :=
  cells.map fun
    | .unset => kUnset
    | _ => kRemoved

/-- `EncodeDataSliceImpl` (encoder.cc:532-610), for a slice whose arrays have the types `order`; `limit` is
`kSoftSizeLimitPerBlock`. -/
def encode (K : Kit P) (limit : Nat) (order : List Kind) (cells : List (Cell P Q)) :
    Compact P × List (Input P Q) :=
  let e := visitValues K limit cells order
    ⟨initialTypes cells, .empty, .empty, false, [], [], 0, 0, 0⟩
  let e := if e.inExtra && e.size > 0 then finalizeBlock e else e
  (⟨e.types, e.extras.length, e.main⟩, e.exprs.map .exprQuote ++ e.extras.map .bytes)

/-! ### The decoder -/

/-- The errors. -/
inductive Err where
  | extraPartCount
  | notBytes
  | typeIndex (i : Nat)
  | hiLo
  | notEnough (k : Kind)
  | notExprQuote
  | dtype
  | unused (k : Kind)
  | moreInputs
  | internal
deriving DecidableEq, Repr

/-- `get_values_size` (decoder.cc:296-314). -/
def valuesSize (k : Kind) (p : Part P) : Except Err Nat :=
  match k with
  | .objectId => if p.hi.length ≠ p.lo.length then .error .hiLo else .ok p.hi.length
  | .unit => .ok 0
  | .exprQuote => .ok 0
  | .plain t => .ok (p.field t).length

/-- `values`, `part_size`, `part_offset`, `last_id` and `part_it` of `process_type`
(decoder.cc:323-329). -/
structure Cursor (P : Type) where
  part : Part P
  size : Nat
  offset : Nat
  lastId : Nat
  rest : List (Part P)

/-- `next_part` (decoder.cc:330-341). -/
def nextPart (k : Kind) (c : Cursor P) : Except Err (Cursor P) :=
  match c.rest with
  | [] => .error (.notEnough k)
  | p :: rest =>
    match valuesSize k p with
    | .error e => .error e
    | .ok n => .ok ⟨p, n, c.offset + c.size, c.lastId, rest⟩

/-- The loop that finds the part with the next value (decoder.cc:372-374); the first argument is the
number of parts that are left, and one. -/
def findPart (k : Kind) : Nat → Cursor P → Except Err (Cursor P)
  | 0, _ => .error .internal
  | n + 1, c =>
    if c.lastId ≥ c.offset + c.size then
      match nextPart k c with
      | .error e => .error e
      | .ok c => findPart k n c
    else .ok c

/-- The loop over the parts that are left (decoder.cc:398-400). -/
def skipParts (k : Kind) : Nat → Cursor P → Except Err (Cursor P)
  | 0, c => .ok c
  | n + 1, c =>
    match nextPart k c with
    | .error e => .error e
    | .ok c => skipParts k n c

/-- The builder, the rest of the input values, and `last_object_id` (decoder.cc:287, 316). -/
structure Dec (P Q : Type) where
  cells : List (Cell P Q)
  inputs : List (Input P Q)
  lastHi : BitVec 64
  lastLo : BitVec 64

/-- `InsertIfNotSet` (slice_builder.h). -/
def insertIfNotSet (cells : List (Cell P Q)) (i : Nat) (c : Cell P Q) : List (Cell P Q) :=
  match cells[i]? with
  | some .unset => cells.set i c
  | _ => cells

/-- One value of the type `k` for position `i` (decoder.cc:359-396). -/
def readValue (K : Kit P) (k : Kind) (i : Nat) (c : Cursor P) (d : Dec P Q) :
    Except Err (Cursor P × Dec P Q) :=
  match k with
  | .unit => .ok (c, { d with cells := insertIfNotSet d.cells i .unit })
  | .exprQuote =>
    match d.inputs with
    | [] => .error (.notEnough .exprQuote)
    | .bytes _ :: _ => .error .notExprQuote
    | .exprQuote q :: inputs =>
      .ok (c, { d with cells := insertIfNotSet d.cells i (.exprQuote q), inputs := inputs })
  | .objectId =>
    match findPart .objectId (c.rest.length + 1) c with
    | .error e => .error e
    | .ok c =>
      match c.part.hi[c.lastId - c.offset]?, c.part.lo[c.lastId - c.offset]? with
      | some hi, some lo =>
        .ok ({ c with lastId := c.lastId + 1 },
          { d with cells := insertIfNotSet d.cells i (.objectId (hi + d.lastHi) (lo + d.lastLo)),
                   lastHi := hi + d.lastHi, lastLo := lo + d.lastLo })
      | _, _ => .error .internal
  | .plain t =>
    match findPart (.plain t) (c.rest.length + 1) c with
    | .error e => .error e
    | .ok c =>
      match (c.part.field t)[c.lastId - c.offset]? with
      | none => .error .internal
      | some v =>
        if t = .dtype ∧ K.isDType v = false then .error .dtype
        else .ok ({ c with lastId := c.lastId + 1 },
          { d with cells := insertIfNotSet d.cells i (.plain t v) })

/-- The loop of `process_type` (decoder.cc:342-397) over the types from position `i` on, with
`next_start_id`. -/
def processLoop (K : Kit P) (k : Kind) : List Nat → Nat → Nat → Cursor P → Dec P Q →
    Except Err (Nat × Cursor P × Dec P Q)
  | [], _, next, c, d => .ok (next, c, d)
  | b :: bs, i, next, c, d =>
    if b = kUnset then processLoop K k bs (i + 1) next c d
    else if b = kRemoved then
      processLoop K k bs (i + 1) next c { d with cells := insertIfNotSet d.cells i .removed }
    else
      match kindOf b with
      | none => .error (.typeIndex b)
      | some k' =>
        if k' ≠ k then processLoop K k bs (i + 1) (min next i) c d
        else
          match readValue K k i c d with
          | .error e => .error e
          | .ok (c, d) => processLoop K k bs (i + 1) next c d

/-- `process_type` (decoder.cc:319-408). -/
def processType (K : Kit P) (types : List Nat) (main : Part P) (extras : List (Part P)) (k : Kind)
    (start : Nat) (d : Dec P Q) : Except Err (Nat × Dec P Q) :=
  match valuesSize k main with
  | .error e => .error e
  | .ok n =>
    match processLoop K k (types.drop start) start types.length ⟨main, n, 0, 0, extras⟩ d with
    | .error e => .error e
    | .ok (next, c, d) =>
      match skipParts k c.rest.length c with
      | .error e => .error e
      | .ok c =>
        if c.lastId ≠ c.offset + c.size ∨ (k = .exprQuote ∧ d.inputs.isEmpty = false) then
          .error (.unused k)
        else .ok (next, d)

/-- The loop over the types (decoder.cc:410-446), with `processed_types`; it ends after at most as many
steps as there are types, the first argument. -/
def decodeLoop (K : Kit P) (types : List Nat) (main : Part P) (extras : List (Part P)) :
    Nat → Nat → List Kind → Dec P Q → Except Err (List Kind × Dec P Q)
  | 0, _, processed, d => .ok (processed, d)
  | n + 1, i, processed, d =>
    match types[i]? with
    | none => .ok (processed, d)
    | some b =>
      if b = kUnset then decodeLoop K types main extras n (i + 1) processed d
      else if b = kRemoved then
        decodeLoop K types main extras n (i + 1) processed
          { d with cells := insertIfNotSet d.cells i .removed }
      else
        match kindOf b with
        | none => .error (.typeIndex b)
        | some k =>
          if processed.contains k then decodeLoop K types main extras n (i + 1) processed d
          else
            match processType K types main extras k i d with
            | .error e => .error e
            | .ok (next, d) => decodeLoop K types main extras n next (k :: processed) d

/-- `supported_types_list` (types.h). -/
def allKinds : List Kind :=
  [.objectId, .plain .i32, .plain .i64, .plain .f32, .plain .f64, .plain .boolean, .unit, .plain .text,
    .plain .bytes, .plain .dtype, .exprQuote]

/-- The check that values of types that do not occur are not there (decoder.cc:447-475); `status` is the
last error. -/
def checkUnused (main : Part P) (inputs : List (Input P Q)) (processed : List Kind) :
    List Kind → Option Err → Option Err
  | [], status => status
  | k :: ks, status =>
    if processed.contains k then checkUnused main inputs processed ks status
    else
      match valuesSize k main with
      | .error e => checkUnused main inputs processed ks (some e)
      | .ok n =>
        if (k = .exprQuote ∧ inputs.isEmpty = false) ∨ n ≠ 0 then
          checkUnused main inputs processed ks (some (.unused k))
        else checkUnused main inputs processed ks status

/-- The extra parts among the input values (decoder.cc:277-283). -/
def extraParts : List (Input P Q) → Except Err (List (Part P))
  | [] => .ok []
  | .exprQuote _ :: _ => .error .notBytes
  | .bytes p :: rest =>
    match extraParts rest with
    | .error e => .error e
    | .ok ps => .ok (p :: ps)

/-- `DecodeDataSliceCompactProto` (decoder.cc:269-481). -/
def decode (K : Kit P) (m : Compact P) (inputs : List (Input P Q)) : Except Err (List (Cell P Q)) :=
  if inputs.length < m.extraPartCount then .error .extraPartCount
  else
    match extraParts (inputs.drop (inputs.length - m.extraPartCount)) with
    | .error e => .error e
    | .ok extras =>
      match decodeLoop K m.types m.part extras m.types.length 0 []
          ⟨List.replicate m.types.length .unset,
            inputs.take (inputs.length - m.extraPartCount), 0, 0⟩ with
      | .error e => .error e
      | .ok (processed, d) =>
        match checkUnused m.part d.inputs processed allKinds none with
        | some e => .error e
        | none => if d.inputs.isEmpty then .ok d.cells else .error .moreInputs

end Verif.S11n
