/-!
Model of `kd_ext.contrib._sanitize_names` (koladata/contrib/sanitize_names.cc): the new names of
attributes. Names are lists of bytes.

The traversal itself is that of `Verif/Traverse`; here it is a list of visits, each with the schema
whose names it uses (`schema` for objects, the item itself for schemas) and with the names of its
attributes, present or not.
-/

namespace Verif.Sanitize

/-- A name: its bytes (`absl::string_view`, sanitize_names.cc:64). -/
abbrev Name := List Nat

/-- `kSanitizePrefix`, "san_" (sanitize_names.cc:58). -/
def prefix' : Name := [115, 97, 110, 95]

/-- `absl::ascii_isdigit` (used in sanitize_names.cc:66, 81). -/
def isDigit (c : Nat) : Bool := 48 ≤ c && c ≤ 57

/-- `absl::ascii_isalnum` (used in sanitize_names.cc:61). -/
def isAlnum (c : Nat) : Bool := isDigit c || (65 ≤ c && c ≤ 90) || (97 ≤ c && c ≤ 122)

/-- `IsValidChar` (sanitize_names.cc:60-62). -/
def isValidChar (c : Nat) : Bool := c = 95 || isAlnum c

/-- `IsValid` (sanitize_names.cc:64-73). -/
def isValid : Name → Bool
  | [] => false
  | c :: name => !isDigit c && (c :: name).all isValidChar

/-- The loop of `SanitizeName` over characters (sanitize_names.cc:82-89). -/
def cleanChars (name : Name) : Name := name.map fun c => if isValidChar c then c else 95

/-- `SanitizeName` (sanitize_names.cc:75-94). -/
def sanitizeName : Name → Name
  | [] => prefix'
  | c :: name =>
    if isDigit c || (c :: name).any (fun c => !isValidChar c) then prefix' ++ cleanChars (c :: name)
    else cleanChars (c :: name)

/-- The decimal digits of a number (`absl::StrCat` of an `int`, sanitize_names.cc:242). -/
def digits (n : Nat) : Name :=
  if n < 10 then [48 + n] else digits (n / 10) ++ [48 + n % 10]

/-- `absl::StrCat(candidate, "_", counter)` (sanitize_names.cc:242). -/
def numbered (candidate : Name) (counter : Nat) : Name := candidate ++ 95 :: digits counter

/-- `per_schema_used_names_` and `per_schema_mapped_names_` of a schema (sanitize_names.cc:249-256). -/
structure Names where
  used : List Name := []
  mapped : List (Name × Name) := []

/-- `mapped[name] = value` (sanitize_names.cc:224, 244). -/
def assign (name value : Name) : List (Name × Name) → List (Name × Name)
  | [] => [(name, value)]
  | (n, v) :: rest => if n = name then (n, value) :: rest else (n, v) :: assign name value rest

/-- `SetAllValidNamesAsUsed` (sanitize_names.cc:215-227), for one name. -/
def setValid (st : Names) (name : Name) : Names :=
  if isValid name then
    { used := if name ∈ st.used then st.used else name :: st.used,
      mapped := assign name name st.mapped }
  else st

/-- The loop that looks for a name that is not used (sanitize_names.cc:238-243). The first argument
bounds the number of its steps. -/
def findFree (used : List Name) (candidate : Name) : Nat → Nat → Name → Option Name
  | 0, _, _ => none
  | fuel + 1, counter, result =>
    if result ∈ used then findFree used candidate fuel (counter + 1) (numbered candidate counter)
    else some result

/-- `Sanitize` (sanitize_names.cc:231-246). `none` if the loop does not end. -/
def sanitize (st : Names) (name : Name) : Option (Name × Names) :=
  match st.mapped.lookup name with
  | some value => some (value, st)
  | none =>
    match findFree st.used (sanitizeName name) (st.used.length + 1) 0 (sanitizeName name) with
    | none => none
    | some result =>
      some (result, { used := result :: st.used, mapped := assign name result st.mapped })

/-- The order of `std::string` (sanitize_names.cc:102). -/
def leName : Name → Name → Bool
  | [], _ => true
  | _ :: _, [] => false
  | a :: as, b :: bs => if a = b then leName as bs else a < b

/-- Insertion into a sorted list (part of `std::sort`, sanitize_names.cc:101-102). -/
def insertSorted (x : Name × Bool) : List (Name × Bool) → List (Name × Bool)
  | [] => [x]
  | y :: ys => if leName x.1 y.1 then x :: y :: ys else y :: insertSorted x ys

/-- `SortedIndices` (sanitize_names.cc:96-104). Simplified: the sorted names instead of indices; names
of attributes are distinct. -/
def sortNames (attrs : List (Name × Bool)) : List (Name × Bool) := attrs.foldr insertSorted []

/-- The loop over the attributes (sanitize_names.cc:166-173, 198-206): only those that are present get
a new name. -/
def nameAll : List (Name × Bool) → Names → Option (List (Name × Name) × Names)
  | [], st => some ([], st)
  | (name, present) :: rest, st =>
    if present then
      match sanitize st name with
      | none => none
      | some (value, st') =>
        match nameAll rest st' with
        | none => none
        | some (out, st'') => some ((name, value) :: out, st'')
    else nameAll rest st

/-- The part of `VisitObject` and `VisitSchema` about names (sanitize_names.cc:162-173, 194-206). -/
def visit (st : Names) (attrs : List (Name × Bool)) : Option (List (Name × Name) × Names) :=
  nameAll (sortNames attrs) ((attrs.map Prod.fst).foldl setValid st)

/-- All visits, with the names of each schema (sanitize_names.cc:249-256). -/
def visitAll {S : Type} [DecidableEq S] :
    List (S × List (Name × Bool)) → (S → Names) → Option (List (List (Name × Name)))
  | [], _ => some []
  | (s, attrs) :: rest, ctx =>
    match visit (ctx s) attrs with
    | none => none
    | some (out, st) =>
      match visitAll rest (fun x => if x = s then st else ctx x) with
      | none => none
      | some outs => some (out :: outs)

end Verif.Sanitize
