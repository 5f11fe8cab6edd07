/-!
Model of functor signatures and of the binding of arguments: `koladata/signature.{h,cc}`,
`koladata/signature_storage.cc`, `koladata/functor/signature_utils.cc` and
`koladata/functor/default_signature.cc`.
-/

namespace Verif.Binding

/-- `Signature::Parameter::Kind` (signature.h:46-52). -/
inductive Kind where
  | positionalOnly
  | positionalOrKeyword
  | varPositional
  | keywordOnly
  | varKeyword
  deriving DecidableEq

/-- The number of a kind in the order of definition (signature.h:46-52). -/
def Kind.toNat : Kind → Nat
  | .positionalOnly => 0
  | .positionalOrKeyword => 1
  | .varPositional => 2
  | .keywordOnly => 3
  | .varKeyword => 4

/-- `Signature::Parameter` (signature.h:40-57). -/
structure Parameter (V : Type) where
  name : String
  kind : Kind
  default : Option V := none

/-- What the model leaves open about values: their rank and how a default value gets the bag of the
functor (`default_values_db`, signature_utils.cc:147-153; the identity if there is none). -/
structure Cfg (V : Type) where
  rank : V → Nat
  withBag : V → V

variable {V : Type}

/-- The errors of `Signature::Create` (signature.cc:31-87). -/
inductive CreateError where
  | duplicateName (name : String)
  | defaultNotAllowed (kind : Kind) (name : String)
  | defaultNotItem (name : String) (rank : Nat)
  | wrongOrder (kind : Kind) (name : String) (previousKind : Kind) (previousName : String)
  | atMostOne (kind : Kind)
  | noDefaultAfterDefault (name previousName : String)
  deriving DecidableEq

/-- The checks of a default value (signature.cc:42-59). -/
def checkDefault (c : Cfg V) (p : Parameter V) : Option CreateError :=
  match p.default with
  | none => none
  | some v =>
    if p.kind = .varPositional ∨ p.kind = .varKeyword then some (.defaultNotAllowed p.kind p.name)
    else if c.rank v ≠ 0 then some (.defaultNotItem p.name (c.rank v))
    else none

/-- The checks of single parameters (signature.cc:33-60). -/
def checkSingle (c : Cfg V) (names : List String) : List (Parameter V) → Option CreateError
  | [] => none
  | p :: ps =>
    if p.name ∈ names then some (.duplicateName p.name)
    else
      match checkDefault c p with
      | some e => some e
      | none => checkSingle c (p.name :: names) ps

/-- The checks of two consecutive parameters (signature.cc:64-84). -/
def checkPair (current next : Parameter V) : Option CreateError :=
  if current.kind.toNat > next.kind.toNat then
    some (.wrongOrder next.kind next.name current.kind current.name)
  else if current.kind = next.kind ∧
      (current.kind = .varPositional ∨ current.kind = .varKeyword) then
    some (.atMostOne current.kind)
  else if (next.kind = .positionalOnly ∨ next.kind = .positionalOrKeyword) ∧
      next.default.isNone = true ∧ current.default.isSome = true then
    some (.noDefaultAfterDefault next.name current.name)
  else none

/-- The loop over pairs (signature.cc:63-85). -/
def checkPairs : List (Parameter V) → Option CreateError
  | current :: next :: rest =>
    match checkPair current next with
    | some e => some e
    | none => checkPairs (next :: rest)
  | _ => none

/-- `Signature` (signature.h:66-87). The index is a list of entries, of which the first with a
name counts. -/
structure Signature (V : Type) where
  parameters : List (Parameter V)
  keywordIndex : List (String × Nat)

/-- The loop of the constructor of `Signature` (signature.cc:91-98). -/
def buildIndex (i : Nat) (index : List (String × Nat)) : List (Parameter V) → List (String × Nat)
  | [] => index
  | p :: ps =>
    buildIndex (i + 1)
      (if p.kind = .keywordOnly ∨ p.kind = .positionalOrKeyword then (p.name, i) :: index else index)
      ps

/-- `Signature::Create` (signature.cc:31-99). -/
def create (c : Cfg V) (ps : List (Parameter V)) : Except CreateError (Signature V) :=
  match checkSingle c [] ps with
  | some e => .error e
  | none =>
    match checkPairs ps with
    | some e => .error e
    | none => .ok ⟨ps, buildIndex 0 [] ps⟩

/-- What a parameter is bound to: a value, `arolla::MakeTuple` or `arolla::MakeNamedTuple`. -/
inductive Bound (V : Type) where
  | value (v : V)
  | tuple (vs : List V)
  | named (fields : List (String × V))

/-- The errors of `BindArguments` (signature_utils.cc:74-168). `duplicateField` is the error of
`arolla::MakeNamedTuple` if two fields have the same name. -/
inductive BindError where
  | tooFewArgs
  | specifiedTwice (name : String)
  | duplicateField
  | tooManyPositional (extra : Nat)
  | unknownKeywords (names : List String)
  | noValue (kind : Kind) (name : String)
  deriving DecidableEq

/-- The variables of `BindArguments` (signature_utils.cc:82-90). A bound argument of the type
nothing is `none`; no value has this type. -/
structure State (V : Type) where
  bound : List (Option (Bound V))
  unknownArgs : List V
  unknownKwargs : List (String × V)

/-- One positional argument (signature_utils.cc:94-101). -/
def bindPositional (ps : List (Parameter V)) (i : Nat) (arg : V) (st : State V) : State V :=
  match ps[i]? with
  | none => { st with unknownArgs := st.unknownArgs ++ [arg] }
  | some p =>
    if p.kind ≠ .positionalOnly ∧ p.kind ≠ .positionalOrKeyword then
      { st with unknownArgs := st.unknownArgs ++ [arg] }
    else { st with bound := st.bound.set i (some (.value arg)) }

/-- The loop over positional arguments (signature_utils.cc:93-102). -/
def bindPositionals (ps : List (Parameter V)) (i : Nat) : List V → State V → State V
  | [], st => st
  | arg :: args, st => bindPositionals ps (i + 1) args (bindPositional ps i arg st)

/-- The loop over keyword arguments (signature_utils.cc:105-120). -/
def bindKeywords (index : List (String × Nat)) :
    List (String × V) → State V → Except BindError (State V)
  | [], st => .ok st
  | (name, value) :: kwargs, st =>
    match index.lookup name with
    | none => bindKeywords index kwargs { st with unknownKwargs := st.unknownKwargs ++ [(name, value)] }
    | some i =>
      match st.bound[i]? with
      | some none => bindKeywords index kwargs { st with bound := st.bound.set i (some (.value value)) }
      | _ => .error (.specifiedTwice name)

/-- The loop over variadic parameters (signature_utils.cc:123-135). -/
def bindVariadics (i : Nat) : List (Parameter V) → State V → Except BindError (State V)
  | [], st => .ok st
  | p :: ps, st =>
    if p.kind = .varPositional then
      bindVariadics (i + 1) ps
        { st with bound := st.bound.set i (some (.tuple st.unknownArgs)), unknownArgs := [] }
    else if p.kind = .varKeyword then
      if (st.unknownKwargs.map Prod.fst).Nodup then
        bindVariadics (i + 1) ps
          { st with bound := st.bound.set i (some (.named st.unknownKwargs)), unknownKwargs := [] }
      else .error .duplicateField
    else bindVariadics (i + 1) ps st

/-- The loop over default values (signature_utils.cc:149-165). -/
def bindDefaults (c : Cfg V) : List (Parameter V) → List (Option (Bound V)) →
    Except BindError (List (Bound V))
  | [], _ => .ok []
  | _ :: _, [] => .ok []
  | p :: ps, b :: bound =>
    match b with
    | some b =>
      match bindDefaults c ps bound with
      | .error e => .error e
      | .ok rest => .ok (b :: rest)
    | none =>
      match p.default with
      | none => .error (.noValue p.kind p.name)
      | some v =>
        match bindDefaults c ps bound with
        | .error e => .error e
        | .ok rest => .ok (.value (c.withBag v) :: rest)

/-- `BindArguments` (signature_utils.cc:74-168). The keyword arguments are the last ones. -/
def bindArguments (c : Cfg V) (signature : Signature V) (args : List V) (kwnames : List String) :
    Except BindError (List (Bound V)) :=
  if args.length < kwnames.length then .error .tooFewArgs
  else
    let kwargsOffset := args.length - kwnames.length
    let st : State V := ⟨List.replicate signature.parameters.length none, [], []⟩
    let st := bindPositionals signature.parameters 0 (args.take kwargsOffset) st
    match bindKeywords signature.keywordIndex (kwnames.zip (args.drop kwargsOffset)) st with
    | .error e => .error e
    | .ok st =>
      match bindVariadics 0 signature.parameters st with
      | .error e => .error e
      | .ok st =>
        if !st.unknownArgs.isEmpty then .error (.tooManyPositional st.unknownArgs.length)
        else if !st.unknownKwargs.isEmpty then
          .error (.unknownKeywords (st.unknownKwargs.map Prod.fst))
        else bindDefaults c signature.parameters st.bound

/-- The loop over inputs (default_signature.cc:39-47). -/
def inputParameters (inputs : List String) : List (Parameter V) :=
  inputs.filterMap fun input =>
    if input = "self" then none else some { name := input, kind := .keywordOnly }

/-- The parameters of `DefaultKodaSignatureFromInputs` (default_signature.cc:30-54);
`unspecified` is `expr::UnspecifiedSelfInput()`. -/
def defaultParameters (unspecified : V) (inputs : List String) : List (Parameter V) :=
  { name := "self", kind := .positionalOnly, default := some unspecified } ::
    (inputParameters inputs ++ [{ name := "__extra_inputs__", kind := .varKeyword }])

/-! ### Stored signatures -/

/-- The name of a kind (signature_storage.h:33-41, `ParameterKindToKoda`,
signature_utils.cc:210-224). The item for a kind is the uuid of its name; different names have
different uuids. -/
def Kind.toKoda : Kind → String
  | .positionalOnly => "positional_only"
  | .positionalOrKeyword => "positional_or_keyword"
  | .varPositional => "var_positional"
  | .keywordOnly => "keyword_only"
  | .varKeyword => "var_keyword"

/-- `KodaToParameterKind` (signature_storage.cc:94-119). -/
def Kind.ofKoda (name : String) : Option Kind :=
  if name = "positional_only" then some .positionalOnly
  else if name = "positional_or_keyword" then some .positionalOrKeyword
  else if name = "var_positional" then some .varPositional
  else if name = "keyword_only" then some .keywordOnly
  else if name = "var_keyword" then some .varKeyword
  else none

/-- The attributes of a stored parameter (signature_utils.cc:233-255); attributes may be missing
in a signature that was not created from a C++ one. -/
structure StoredParameter (V : Type) where
  kind : String
  name : Option String
  default : V

/-- `CppSignatureToKodaSignature` (signature_utils.cc:226-272); `marker` is
`NoDefaultValueMarker()`. -/
def toKoda (marker : V) (s : Signature V) : List (StoredParameter V) :=
  s.parameters.map fun p =>
    { kind := p.kind.toKoda, name := some p.name, default := p.default.getD marker }

/-- The errors of `KodaSignatureToCppSignature` (signature_storage.cc:123-174). -/
inductive StoredError where
  | noName (i : Nat)
  | unknownKind (kind : String)
  | invalid (e : CreateError)
  deriving DecidableEq

/-- The loop over stored parameters (signature_storage.cc:142-172); `detach` is
`detach_default_values_db`, `noBag` is `WithBag(nullptr)`. -/
def readParameters [DecidableEq V] (marker : V) (detach : Bool) (noBag : V → V) (i : Nat) :
    List (StoredParameter V) → Except StoredError (List (Parameter V))
  | [] => .ok []
  | p :: ps =>
    match p.name with
    | none => .error (.noName i)
    | some name =>
      match Kind.ofKoda p.kind with
      | none => .error (.unknownKind p.kind)
      | some kind =>
        match readParameters marker detach noBag (i + 1) ps with
        | .error e => .error e
        | .ok rest =>
          .ok ({ name := name
                 kind := kind
                 default :=
                  if p.default = marker then none
                  else some (if detach then noBag p.default else p.default) } :: rest)

/-- `KodaSignatureToCppSignature` (signature_storage.cc:123-175). Simplification: the signature is
present and has parameters. -/
def ofKoda [DecidableEq V] (c : Cfg V) (marker : V) (detach : Bool) (noBag : V → V)
    (stored : List (StoredParameter V)) : Except StoredError (Signature V) :=
  match readParameters marker detach noBag 0 stored with
  | .error e => .error e
  | .ok ps =>
    match create c ps with
    | .error e => .error (.invalid e)
    | .ok s => .ok s

end Verif.Binding
