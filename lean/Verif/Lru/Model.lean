import Verif.Common.PyDict

/-!
Model of `LruSizeTrackingCache`
(`/repo/py/koladata/ext/storage/lru_size_tracking_cache.py`).

All methods run under one re-entrant lock (`_rlock`), so a call is one atomic
step and a multi threaded execution is a sequence of calls.
-/
namespace Verif.Lru

/-- The exception raised by the code (`ValueError`, lines 81 and 199). -/
inductive Err where
  | valueError
  deriving Repr, DecidableEq

/-- `_CacheValueAndMetadata` (lru_size_tracking_cache.py:22-31): the value and the
`num_bytes_estimate` of its metadata. -/
structure Entry (V : Type) where
  value : V
  numBytes : Int
  deriving Repr, DecidableEq

/-- The attributes of `LruSizeTrackingCache` (lines 61-66). The python dict keeps
insertion order, oldest entry first. The lock is not represented. -/
structure Cache (K V : Type) where
  max : Int
  cache : PyDict K (Entry V)
  total : Int
  deriving Repr, DecidableEq

variable {K V : Type} [DecidableEq K]

/-- `__init__` (lines 68-91). -/
def init (K V : Type) (max : Int) : Except Err (Cache K V) :=
  if max < 0 then .error .valueError
  else .ok { max := max, cache := [], total := 0 }

/-- `get` (lines 93-102) with the default `None` (`none`): pops the entry and
inserts it again at the end. -/
def get (c : Cache K V) (k : K) : Option V × Cache K V :=
  match c.cache.get? k with
  | none => (none, c)
  | some e => (some e.value, { c with cache := (c.cache.erase k).set k e })

/-- The loop of `_shrink_cache_to_at_most` (lines 226-232) over the snapshot of
the items from old to new. -/
def shrinkLoop (m : Int) : List (K × Entry V) → Cache K V → Cache K V
  | [], c => c
  | (k, e) :: rest, c =>
    if c.total ≤ m then c
    else shrinkLoop m rest { c with cache := c.cache.erase k, total := c.total - e.numBytes }

/-- `_shrink_cache_to_at_most` (lines 215-232). -/
def shrink (c : Cache K V) (m : Int) : Cache K V :=
  if c.total ≤ m then c else shrinkLoop m c.cache c

/-- `set` (lines 156-171): returns the value the caller should use and the new
cache. The sentinel `_NOT_FOUND` is `none`. -/
def set (c : Cache K V) (k : K) (v : V) (n : Int) : V × Cache K V :=
  match get c k with
  | (some existing, c') => (existing, c')
  | (none, c') =>
    if n > c'.max then (v, c')
    else
      let c'' := shrink c' (c'.max - n)
      (v, { c'' with cache := c''.cache.set k ⟨v, n⟩, total := c''.total + n })

/-- `remove` (lines 173-182). -/
def remove (c : Cache K V) (k : K) : Cache K V :=
  match c.cache.get? k with
  | none => c
  | some e => { c with cache := c.cache.erase k, total := c.total - e.numBytes }

/-- `get_total_bytes_of_entries_in_cache` (lines 184-187). -/
def getTotal (c : Cache K V) : Int := c.total

/-- `get_max_total_bytes_of_entries_in_cache` (lines 189-192). -/
def getMax (c : Cache K V) : Int := c.max

/-- `set_max_total_bytes_of_entries_in_cache` (lines 194-207). -/
def setMax (c : Cache K V) (m : Int) : Except Err (Cache K V) :=
  if m < 0 then .error .valueError
  else .ok { shrink c m with max := m }

/-- `clear` (lines 209-213). -/
def clear (c : Cache K V) : Cache K V := { c with cache := [], total := 0 }

/-- A call of a public method. -/
inductive Op (K V : Type) where
  | get (k : K)
  | set (k : K) (v : V) (n : Int)
  | remove (k : K)
  | setMax (m : Int)
  | clear
  deriving Repr, DecidableEq

/-- What a call returns. -/
inductive Res (V : Type) where
  | got (v : Option V)
  | stored (v : V)
  | unit
  | raised (e : Err)
  deriving Repr, DecidableEq

/-- One call. A call that raises leaves the cache unchanged (line 198 precedes
any mutation). -/
def step (c : Cache K V) : Op K V → Res V × Cache K V
  | .get k => let r := get c k; (.got r.1, r.2)
  | .set k v n => let r := set c k v n; (.stored r.1, r.2)
  | .remove k => (.unit, remove c k)
  | .setMax m =>
    match setMax c m with
    | .ok c' => (.unit, c')
    | .error e => (.raised e, c)
  | .clear => (.unit, clear c)

/-- A history of calls. -/
def run (c : Cache K V) : List (Op K V) → Cache K V
  | [] => c
  | op :: ops => run (step c op).2 ops

end Verif.Lru
