/-!
Model of `get_elements_indices_from_ds` and `reshape_based_on_indices` (py/koladata/ext/npkd.py:107-237).

A slice is nested lists. The columns of indices and the flat values are a list of items: coordinates and an
optional value. Nested dicts are represented by the items that were written to them; a key stays a
key of a dict if a missing value is written to it (dict.h:64-80, dict.cc:83-100), and a dict that was replaced by a later one for the same key is not used, as the
lookup comes after all writes (npkd.py:224-228). Not modelled: the checks of shapes (npkd.py:195-206), which also
exclude no dimensions, and bags.
-/

namespace Verif.Reshape

/-- A slice of `n` dimensions. -/
def Nest (V : Type) : Nat → Type
  | 0 => Option V
  | n + 1 => List (Nest V n)

/-- Coordinates and values of elements. -/
abbrev Items (V : Type) := List (List Nat × Option V)

/-- `kdi.index` of a dimension, expanded to the elements (npkd.py:145-154): the rows are numbered from `k`. -/
def number {R V : Type} (f : R → Items V) : Nat → List R → Items V
  | _, [] => []
  | k, r :: rs => (f r).map (fun it => (k :: it.1, it.2)) ++ number f (k + 1) rs

/-- `get_elements_indices_from_ds` with the values of `flatten` (npkd.py:114-154). -/
def elements {V : Type} : (n : Nat) → Nest V n → Items V
  | 0, v => [([], v)]
  | n + 1, rows => number (elements n) 0 rows

/-- What was written below a key of a dict (npkd.py:223-230). -/
def below {V : Type} (i : Nat) (items : Items V) : Items V :=
  items.filterMap fun it =>
    match it.1 with
    | k :: rest => if k = i then some (rest, it.2) else none
    | [] => none

/-- The value of a key of a last dict: the last one that was written (npkd.py:230). -/
def leaf {V : Type} (items : Items V) : Option V := items.getLast?.bind fun it => it.2

/-- `get_keys` (npkd.py:234): everything that was written (npkd.py:223-230), possibly more than once. -/
def keys {V : Type} (items : Items V) : List Nat := items.filterMap fun it => it.1.head?

/-- `(agg_max(keys) + 1) | 0` (npkd.py:234). -/
def numChildren : List Nat → Nat
  | [] => 0
  | k :: ks => max (k + 1) (numChildren ks)

/-- `reshape_based_on_indices` (npkd.py:213-237). -/
def reshape {V : Type} : (n : Nat) → Items V → Nest V n
  | 0, items => leaf items
  | n + 1, items => (List.range (numChildren (keys items))).map fun i => reshape n (below i items)

end Verif.Reshape
