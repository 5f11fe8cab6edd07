import Verif.Binding.Model

/-!
The rules of python for signatures (`inspect.Signature`) and for calls (The Python Language
Reference, 6.3.4).
-/

namespace Verif.Binding

variable {V : Type}

/-- The order of kinds in `def f(a, /, b, *args, c, **kwargs)`. -/
def Kind.place (k : Kind) : Nat :=
  [Kind.positionalOnly, .positionalOrKeyword, .varPositional, .keywordOnly, .varKeyword].idxOf k

/-- Parameters that take positional arguments. -/
def Parameter.positional (p : Parameter V) : Bool :=
  p.kind = .positionalOnly || p.kind = .positionalOrKeyword

/-- Parameters that take keyword arguments. -/
def Parameter.keyword (p : Parameter V) : Bool :=
  p.kind = .positionalOrKeyword || p.kind = .keywordOnly

/-- The number of slots for positional arguments. -/
def slots (ps : List (Parameter V)) : Nat := (ps.filter Parameter.positional).length

/-- A keyword that is the name of a parameter that takes keywords. -/
def takes (ps : List (Parameter V)) (name : String) : Bool :=
  ps.any fun p => p.keyword && p.name == name

/-- A valid signature: names are different, kinds come in the order of python, there is at most
one parameter of a variadic kind, variadic parameters have no default, and a positional parameter
after one with a default has a default. Defaults are items, not slices. -/
structure PyValid (c : Cfg V) (ps : List (Parameter V)) : Prop where
  names : (ps.map Parameter.name).Nodup
  order : ∀ (i j : Nat) (p q : Parameter V), ps[i]? = some p → ps[j]? = some q → i < j →
    p.kind.place ≤ q.kind.place
  one : ∀ (i j : Nat) (p q : Parameter V), ps[i]? = some p → ps[j]? = some q → p.kind = q.kind →
    p.kind = .varPositional ∨ p.kind = .varKeyword → i = j
  noDefault : ∀ p ∈ ps, p.kind = .varPositional ∨ p.kind = .varKeyword → p.default = none
  defaults : ∀ (i j : Nat) (p q : Parameter V), ps[i]? = some p → ps[j]? = some q → i < j →
    q.positional = true → p.default.isSome = true → q.default.isSome = true
  items : ∀ p ∈ ps, ∀ v, p.default = some v → c.rank v = 0

/-- What a parameter gets in a call with positional arguments `pos` and keyword arguments `kw`. -/
inductive Gets (c : Cfg V) (ps : List (Parameter V)) (pos : List V) (kw : List (String × V))
    (i : Nat) (p : Parameter V) : Bound V → Prop where
  | positional {v} : p.positional = true → pos[i]? = some v → Gets c ps pos kw i p (.value v)
  | keyword {v} : p.keyword = true → (p.name, v) ∈ kw → Gets c ps pos kw i p (.value v)
  | default {v} : (p.positional = true → pos.length ≤ i) →
      (p.keyword = true → p.name ∉ kw.map Prod.fst) → p.default = some v →
      Gets c ps pos kw i p (.value (c.withBag v))
  | varPositional : p.kind = .varPositional → Gets c ps pos kw i p (.tuple (pos.drop (slots ps)))
  | varKeyword : p.kind = .varKeyword →
      Gets c ps pos kw i p (.named (kw.filter fun e => !takes ps e.1))

/-- A call that python binds, and the values of the parameters. -/
structure PyBinds (c : Cfg V) (ps : List (Parameter V)) (pos : List V) (kw : List (String × V))
    (out : List (Bound V)) : Prop where
  distinct : (kw.map Prod.fst).Nodup
  fit : (∃ p ∈ ps, p.kind = .varPositional) ∨ pos.length ≤ slots ps
  known : (∃ p ∈ ps, p.kind = .varKeyword) ∨ ∀ e ∈ kw, takes ps e.1 = true
  once : ∀ (i : Nat) (p : Parameter V), ps[i]? = some p → p.positional = true →
    p.keyword = true → i < pos.length → p.name ∉ kw.map Prod.fst
  length : out.length = ps.length
  values : ∀ (i : Nat) (p : Parameter V) (b : Bound V), ps[i]? = some p → out[i]? = some b →
    Gets c ps pos kw i p b

/-- What is wrong with a call, for every error. -/
def Wrong (ps : List (Parameter V)) (pos : List V) (kw : List (String × V)) : BindError → Prop
  | .tooFewArgs => False
  | .specifiedTwice name => ∃ (i : Nat) (p : Parameter V), ps[i]? = some p ∧ p.name = name ∧
      p.keyword = true ∧
      ((p.positional = true ∧ i < pos.length ∧ name ∈ kw.map Prod.fst) ∨
        2 ≤ (kw.map Prod.fst).count name)
  | .duplicateField => (∃ p ∈ ps, p.kind = .varKeyword) ∧
      ∃ name, takes ps name = false ∧ 2 ≤ (kw.map Prod.fst).count name
  | .tooManyPositional extra => (∀ p ∈ ps, p.kind ≠ .varPositional) ∧
      pos.length = slots ps + extra ∧ 0 < extra
  | .unknownKeywords names => (∀ p ∈ ps, p.kind ≠ .varKeyword) ∧
      names = (kw.filter fun e => !takes ps e.1).map Prod.fst ∧ names ≠ []
  | .noValue kind name => ∃ (i : Nat) (p : Parameter V), ps[i]? = some p ∧ p.name = name ∧
      p.kind = kind ∧ (p.positional = true ∨ p.keyword = true) ∧
      (p.positional = true → pos.length ≤ i) ∧ (p.keyword = true → p.name ∉ kw.map Prod.fst) ∧
      p.default = none

/-- What is wrong with a signature, for every error. -/
def WrongSignature (c : Cfg V) (ps : List (Parameter V)) : CreateError → Prop
  | .duplicateName name => ∃ (i j : Nat) (p q : Parameter V), i < j ∧ ps[i]? = some p ∧
      ps[j]? = some q ∧ p.name = q.name ∧ q.name = name
  | .defaultNotAllowed kind name => ∃ p ∈ ps, p.name = name ∧ p.kind = kind ∧
      (p.kind = .varPositional ∨ p.kind = .varKeyword) ∧ p.default.isSome = true
  | .defaultNotItem name rank => ∃ p ∈ ps, p.name = name ∧
      ∃ v, p.default = some v ∧ c.rank v = rank ∧ rank ≠ 0
  | .wrongOrder kind name previousKind previousName => ∃ (i : Nat) (p q : Parameter V),
      ps[i]? = some p ∧ ps[i + 1]? = some q ∧ q.kind = kind ∧ q.name = name ∧
      p.kind = previousKind ∧ p.name = previousName ∧ kind.place < previousKind.place
  | .atMostOne kind => ∃ (i : Nat) (p q : Parameter V), ps[i]? = some p ∧ ps[i + 1]? = some q ∧
      p.kind = kind ∧ q.kind = kind ∧ (kind = .varPositional ∨ kind = .varKeyword)
  | .noDefaultAfterDefault name previousName => ∃ (i : Nat) (p q : Parameter V),
      ps[i]? = some p ∧ ps[i + 1]? = some q ∧ q.name = name ∧ p.name = previousName ∧
      q.positional = true ∧ q.default.isNone = true ∧ p.default.isSome = true

/-- The parameter a stored one stands for. -/
structure Stands (marker : V) (detach : Bool) (noBag : V → V) (x : StoredParameter V)
    (p : Parameter V) : Prop where
  name : x.name = some p.name
  kind : p.kind.toKoda = x.kind
  noDefault : x.default = marker → p.default = none
  default : x.default ≠ marker →
    p.default = some (match detach with | true => noBag x.default | false => x.default)

end Verif.Binding
