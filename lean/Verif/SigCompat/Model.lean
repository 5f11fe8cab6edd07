import Verif.Binding.Spec
/-
Model of `kd.functor.assert_signatures_compatible`
(/repo/py/koladata/functor/substitute.py 36-147), which decides whether a functor
may be replaced by another one.  Signatures are those of `Verif.Binding`.

Simplified: a default value is a default value or not (`NO_DEFAULT_VALUE` is the
`none` of the C++ signature, see C49); masks are booleans.
-/

namespace Verif.SigCompat

open Verif.Binding

variable {V : Type}

/-- What `inspect.Signature.bind` (called in substitute.py 124) asks of the `i`-th parameter if there are `n`
positional arguments and keywords `kw`: a parameter that takes an argument by
position does not get it by keyword as well, and one without an argument has a
default. -/
def paramOk (n : Nat) (kw : List String) (i : Nat) (p : Parameter V) : Bool :=
  match p.kind with
  | .positionalOnly => i < n || p.default.isSome
  | .positionalOrKeyword =>
    if i < n then !kw.contains p.name else kw.contains p.name || p.default.isSome
  | .keywordOnly => kw.contains p.name || p.default.isSome
  | .varPositional => true
  | .varKeyword => true

/-- `paramOk` for all parameters, from the `i`-th on (part of `inspect.Signature.bind`,
substitute.py 124). -/
def paramsOk (n : Nat) (kw : List String) (i : Nat) : List (Parameter V) → Bool
  | [] => true
  | p :: ps => paramOk n kw i p && paramsOk n kw (i + 1) ps

/-- The number of parameters of a kind (`agg_count(kind == ...)`, substitute.py 96-101, 142, 146). -/
def countKind (ps : List (Parameter V)) (k : Kind) : Nat := ps.countP fun p => p.kind = k

/-- `inspect.Signature.bind` of the python library: whether it binds `n` positional
arguments and the keywords `kw` (substitute.py 124).  Not code of the repository:
its documented behaviour, without the order in which it looks for errors.  (Before
python 3.13 it also rejects a keyword with the name of a positional-only parameter
if there is a `**kwargs` to collect it.) -/
def inspectBind (ps : List (Parameter V)) (n : Nat) (kw : List String) : Bool :=
  (0 < countKind ps .varPositional ||
    n ≤ countKind ps .positionalOnly + countKind ps .positionalOrKeyword) &&
  (0 < countKind ps .varKeyword ||
    kw.all fun name => ps.any fun p =>
      (p.kind = .positionalOrKeyword || p.kind = .keywordOnly) && p.name == name) &&
  paramsOk n kw 0 ps

/-- The keyword for `**kwargs` (substitute.py 145). -/
def unusualName : String := "__argument_that_does_not_exist__"

/-- The errors (substitute.py 90, 126-130). -/
inductive CompatError where
  | notFunctor      -- "replacement for subfunctor must be a functor"
  | incompatible (positional : Nat) (keywords : List String)
deriving DecidableEq, Repr

/-- `verify` (substitute.py 120-130).  The keywords are those of a dict. -/
def verify (new : List (Parameter V)) (n : Nat) (kw : List String) : Except CompatError Unit :=
  if inspectBind new n kw then .ok () else .error (.incompatible n kw)

/-- `min_positional_args` (substitute.py 132). -/
def minPositional (old : List (Parameter V)) : Nat :=
  old.countP fun p => p.kind = .positionalOnly && !p.default.isSome

/-- `min_kw_arg_names` (substitute.py 133-137). -/
def minKeywords (old : List (Parameter V)) : List String :=
  (old.filter fun p => (p.kind = .positionalOrKeyword || p.kind = .keywordOnly) &&
    !p.default.isSome).map (·.name)

/-- `max_positional_args` (substitute.py 140-143). -/
def maxPositional (old : List (Parameter V)) : Nat :=
  (old.countP fun p => p.kind = .positionalOnly || p.kind = .positionalOrKeyword) +
    10 * countKind old .varPositional

/-- `max_kw_arg_names` (substitute.py 144-146). -/
def maxKeywords (old : List (Parameter V)) : List String :=
  (old.filter fun p => p.kind = .keywordOnly).map (·.name) ++
    List.replicate (countKind old .varKeyword) unusualName

/-- `assert_signatures_compatible` (substitute.py 36-147); `isFn` is
`functor_factories.is_fn(new_fn)`. -/
def assertCompatible (isFn : Bool) (old new : List (Parameter V)) : Except CompatError Unit :=
  if !isFn then .error .notFunctor
  else
    match verify new (minPositional old) (minKeywords old) with
    | .error e => .error e
    | .ok () => verify new (maxPositional old) (maxKeywords old)

end Verif.SigCompat
