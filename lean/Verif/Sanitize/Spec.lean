import Verif.Sanitize.Model

/-!
What the new names are.
-/

namespace Verif.Sanitize

/-- The bytes of ASCII letters, digits and the underscore. -/
def Letter (c : Nat) : Prop := (65 ≤ c ∧ c ≤ 90) ∨ (97 ≤ c ∧ c ≤ 122)
def Digit (c : Nat) : Prop := 48 ≤ c ∧ c ≤ 57
def WordChar (c : Nat) : Prop := Letter c ∨ Digit c ∨ c = 95

/-- An ASCII identifier of python. -/
def Identifier (n : Name) : Prop :=
  ∃ c rest, n = c :: rest ∧ (Letter c ∨ c = 95) ∧ ∀ d ∈ rest, WordChar d

/-- `b` is `n` with "san_" before it, and an underscore for every other character. -/
def Base (n b : Name) : Prop :=
  ∃ t : Name, b = [115, 97, 110, 95] ++ t ∧ t.length = n.length ∧
    ∀ (i : Nat) (c : Nat), n[i]? = some c →
      (WordChar c → t[i]? = some c) ∧ (¬ WordChar c → t[i]? = some 95)

/-- `ds` is the number `k` in decimal. -/
inductive Decimal : Name → Nat → Prop where
  | digit {d} : d < 10 → Decimal [48 + d] d
  | more {ds k d} : 0 < k → d < 10 → Decimal ds k → Decimal (ds ++ [48 + d]) (10 * k + d)

/-- The `i`-th choice for the new name of `n`: "san_n", "san_n_0", "san_n_1", ... -/
def Choice (n : Name) (i : Nat) (m : Name) : Prop :=
  ∃ b, Base n b ∧ ((i = 0 ∧ m = b) ∨ ∃ k ds, i = k + 1 ∧ Decimal ds k ∧ m = b ++ 95 :: ds)

/-- `f` renames the names `N` of one schema: identifiers stay, other names get the first choice that is
not the new name of another name. -/
structure Renaming (N : Name → Prop) (f : Name → Option Name) : Prop where
  known : ∀ n m, f n = some m → N n
  identifier : ∀ n m, f n = some m → Identifier m
  same : ∀ n, N n → Identifier n → f n = some n
  different : ∀ n n' m, f n = some m → f n' = some m → n = n'
  choice : ∀ n m, f n = some m → ¬ Identifier n →
    ∃ i, Choice n i m ∧ ∀ j, j < i → ∃ n' m', n' ≠ n ∧ Choice n j m' ∧ f n' = some m'

/-- The order of strings: at the first difference, or because one ends. -/
inductive Before : Name → Name → Prop where
  | nil (m) : Before [] m
  | less {a b n m} : a < b → Before (a :: n) (b :: m)
  | equal {a n m} : Before n m → Before (a :: n) (a :: m)

/-- What a visit gives: the attributes that are there, in order, with the new names. -/
def Given (f : Name → Option Name) (attrs : List (Name × Bool)) (out : List (Name × Name)) : Prop :=
  (out.map Prod.fst).Perm ((attrs.filter (·.2)).map Prod.fst) ∧
    (out.map Prod.fst).Pairwise Before ∧ ∀ n m, (n, m) ∈ out → f n = some m

end Verif.Sanitize
