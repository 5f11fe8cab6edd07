/-!
Model of `/repo/py/koladata/ext/storage/data_slice_path.py`: the string form of
data slice paths, its parser, and the enumeration of the paths of a schema.

Simplifications. A python string is the list of its characters.
`str.isidentifier` and the base64 codec of attribute names (lines 236-252) are
parameters (`Text`); what is assumed about them is stated in `TextLaws`
(Spec.lean). Error messages are dropped: every `ActionParsingError` ends in the
`ValueError` raised by `create_error` (lines 405-417). Evaluation of paths on
slices (`evaluate`) is not modelled.
-/
namespace Verif.Path

/-- `str.isidentifier`, `base64_encoded_attr_name` and
`decode_base64_encoded_attr_name` (lines 236-252); `none` is a `ValueError` of the
decoder. -/
structure Text where
  isIdent : List Char → Bool
  enc : List Char → List Char
  dec : List Char → Option (List Char)

/-- The actions (lines 125-262). -/
inductive Action where
  | dictGetKeys
  | dictGetValues
  | listExplode
  | getAttr (name : List Char)
  deriving Repr, DecidableEq

def sGetKeys : List Char := ['.', 'g', 'e', 't', '_', 'k', 'e', 'y', 's', '(', ')']
def sGetValues : List Char := ['.', 'g', 'e', 't', '_', 'v', 'a', 'l', 'u', 'e', 's', '(', ')']
def sExplode : List Char := ['[', ':', ']']
def sGetAttr : List Char := ['.', 'g', 'e', 't', '_', 'a', 't', 't', 'r', '(']

/-- `str.removeprefix`. -/
def removePrefix (p s : List Char) : List Char := if p.isPrefixOf s then s.drop p.length else s

/-- `_get_prefix` (lines 353-366): `of.split(before)[0]`, the part before the first
occurrence of `before`, or everything. -/
def getPrefix (before : List Char) : List Char → List Char
  | [] => []
  | c :: s => if before.isPrefixOf (c :: s) then [] else c :: getPrefix before s

/-- `str(action)` (lines 140, 177, 214, 320-323). -/
def Action.toStr (t : Text) : Action → List Char
  | .dictGetKeys => sGetKeys
  | .dictGetValues => sGetValues
  | .listExplode => sExplode
  | .getAttr name =>
    if t.isIdent name then '.' :: name
    else sGetAttr ++ ['"'] ++ t.enc name ++ ['"', ')']

/-- `DataSlicePath.to_string` (lines 458-460). -/
def toStr (t : Text) (p : List Action) : List Char := (p.map (Action.toStr t)).flatten

/-- The outcome of `parse_from_data_slice_path_prefix`: not applicable (`None`), an
`ActionParsingError`, or an action and the remainder. -/
inductive Parsed where
  | notApplicable
  | failed
  | ok (a : Action) (rest : List Char)
  deriving Repr, DecidableEq

/-- `DictGetKeys.parse_from_data_slice_path_prefix` (lines 132-138). -/
def parseKeys (s : List Char) : Parsed :=
  if sGetKeys.isPrefixOf s then .ok .dictGetKeys (removePrefix sGetKeys s) else .notApplicable

/-- `DictGetValues.parse_from_data_slice_path_prefix` (lines 169-175). -/
def parseValues (s : List Char) : Parsed :=
  if sGetValues.isPrefixOf s then .ok .dictGetValues (removePrefix sGetValues s)
  else .notApplicable

/-- `ListExplode.parse_from_data_slice_path_prefix` (lines 206-212). -/
def parseExplode (s : List Char) : Parsed :=
  if sExplode.isPrefixOf s then .ok .listExplode (removePrefix sExplode s) else .notApplicable

/-- `GetAttr.parse_from_data_slice_path_prefix` (lines 264-318). -/
def parseGetAttr (t : Text) (s : List Char) : Parsed :=
  if sGetAttr.isPrefixOf s then
    match removePrefix sGetAttr s with
    | [] => .failed
    | q :: r =>
      if q = '"' ∨ q = '\'' then
        let b := getPrefix [q] r
        match t.dec b with
        | none => .failed
        | some name =>
          let r' := removePrefix b r
          if [q, ')'].isPrefixOf r' then .ok (.getAttr name) (removePrefix [q, ')'] r')
          else .failed
      else .failed
  else
    match s with
    | '.' :: w =>
      let upToExplode := getPrefix sExplode w
      let upToDot := getPrefix ['.'] w
      let name := if upToExplode.length < upToDot.length then upToExplode else upToDot
      if name = [] then .failed
      else if t.isIdent name then .ok (.getAttr name) (removePrefix ('.' :: name) s)
      else .failed
    | _ => .notApplicable

/-- The `for action_cls in [...]` loop (lines 420-443). -/
def parseOne (t : Text) (s : List Char) : Parsed :=
  match parseKeys s with
  | .notApplicable =>
    match parseValues s with
    | .notApplicable =>
      match parseExplode s with
      | .notApplicable =>
        match parseGetAttr t s with
        | .notApplicable => .failed
        | r => r
      | r => r
    | r => r
  | r => r

/-- How `parse_from_string` ends, if it does within the given number of loop
iterations. -/
inductive Result where
  | ok (p : List Action)
  | valueError
  | stillRunning
  deriving Repr, DecidableEq

/-- `parse_from_string` (lines 419-444), `n` iterations of the `while` loop. -/
def parseLoop (t : Text) : Nat → List Char → List Action → Result
  | _, [], acc => .ok acc
  | 0, _ :: _, _ => .stillRunning
  | n + 1, c :: s, acc =>
    match parseOne t (c :: s) with
    | .ok a rest => parseLoop t n rest (acc ++ [a])
    | _ => .valueError

/-- `parse_from_string`: one iteration per character is always enough
(`C06_parse_terminates`). -/
def parse (t : Text) (s : List Char) : Result := parseLoop t s.length s []

/-! ### Enumeration of paths -/

/-- What `expand_one_step` and `get_subschema` look at: a schema without item id
(primitives, ...), a list schema, a dict schema, or a schema with attributes in
the (sorted) order of `kd.dir`. -/
inductive Kind (S : Type) where
  | leaf
  | list (item : S)
  | dict (key value : S)
  | entity (attrs : List (List Char × S))

/-- `expand_one_step` (lines 516-547), without the path it extends. -/
def children {S : Type} (kind : S → Kind S) (s : S) : List (Action × S) :=
  match kind s with
  | .leaf => []
  | .list item => [(.listExplode, item)]
  | .dict k v => [(.dictGetKeys, k), (.dictGetValues, v)]
  | .entity attrs => attrs.map fun p => (.getAttr p.1, p.2)

/-- `within_max_depth` (lines 549-552). -/
def within (maxDepth : Int) (levelDepth : Int) : Bool :=
  if maxDepth = -1 then true else decide (levelDepth ≤ maxDepth)

/-- The `while` loop (lines 554-563), `n` iterations: what has been yielded, and
whether the loop has ended. -/
def genLoop {S : Type} (kind : S → Kind S) (maxDepth : Int) :
    Nat → List (List Action × S) → Int → List (List Action) × Bool
  | 0, level, depth => ([], level.isEmpty || !(within maxDepth depth))
  | n + 1, level, depth =>
    if level.isEmpty || !(within maxDepth depth) then ([], true)
    else
      let depth' := depth + 1
      let next := if within maxDepth depth' then
        level.flatMap fun x => (children kind x.2).map fun c => (x.1 ++ [c.1], c.2) else []
      let (more, done) := genLoop kind maxDepth n next depth'
      (level.map (·.1) ++ more, done)

/-- `generate_data_slice_paths_for_arbitrary_data_slice_with_schema`
(lines 496-563), run for `n` levels. -/
def generate {S : Type} (kind : S → Kind S) (s : S) (maxDepth : Int) (n : Nat) :
    List (List Action) × Bool := genLoop kind maxDepth n [([], s)] 0

/-- `get_subschema` of the actions (lines 143-146, 180-183, 217-220, 328-337):
`none` is `IncompatibleSchemaError`. -/
def subschema {S : Type} (kind : S → Kind S) (s : S) : Action → Option S
  | .dictGetKeys => match kind s with | .dict k _ => some k | _ => none
  | .dictGetValues => match kind s with | .dict _ v => some v | _ => none
  | .listExplode => match kind s with | .list i => some i | _ => none
  | .getAttr name =>
    match kind s with
    | .entity attrs => (attrs.find? fun p => p.1 = name).map (·.2)
    | _ => none

end Verif.Path
