/-!
Model of `LruCache.cache_fn` (`/repo/py/koladata/caching/lru_cache.py:63-132`) on
top of the batched cache of `/repo/py/koladata/caching/clib.cc`.

Simplifications. A slice is the list of its optional items; a DataItem is the
one element list (clib.cc handles items in separate branches, lines 75-90 and
153-166, with the same effect). Schemas and bags are not represented. The
decorated functions are pointwise and deterministic: function `f` maps item `a`
to `fn f a`. `kd.uuid(func=func_uuid, args=kd.deep_uuid(args))` is an
uninterpreted function `key` of the function id and the item; it is present also
for missing items (`/repo/koladata/internal/uuid_object.cc:131-173`).
`arolla::LruCache` is not part of `/repo`; it is any cache that satisfies
`LruLaws`: it may forget anything at any time, but never makes up a value.
-/
namespace Verif.CacheFn

/-- The interface of `arolla::LruCache<ObjectId, DataSlice>` used by clib.cc:
`Clear`, `LookupOrNull` (may update recency) and `Put` (may evict). `peek` is what
a lookup would return. -/
structure Lru (C K V : Type) where
  empty : C
  peek : C → K → Option V
  lookup : C → K → C
  put : C → K → V → C

/-- What is assumed about `arolla::LruCache`. -/
structure LruLaws {C K V : Type} (l : Lru C K V) : Prop where
  peek_empty : ∀ k, l.peek l.empty k = none
  peek_lookup : ∀ c k k', l.peek (l.lookup c k) k' = l.peek c k'
  peek_put : ∀ c k v k', l.peek (l.put c k v) k' = none ∨
    l.peek (l.put c k v) k' = l.peek c k' ∨ (k' = k ∧ l.peek (l.put c k v) k' = some v)

/-- What is fixed during an execution: the decorated functions (`fn`), their cache
keys, their `is_hit_fn` (a mask for each item of the slice it is given). -/
structure Env (F A V K : Type) where
  fn : F → Option A → Option V
  key : F → Option A → K
  isHit : F → Option (List (Option V) → List Bool)

/-- `x & mask` (`kd.apply_mask`), pointwise. -/
def applyMask {α : Type} (xs : List (Option α)) (mask : List Bool) : List (Option α) :=
  List.zipWith (fun x m => if m then x else none) xs mask

/-- `x | y` (`kd.coalesce`), pointwise. -/
def coalesce {α : Type} (xs ys : List (Option α)) : List (Option α) :=
  List.zipWith (fun x y => x.or y) xs ys

/-- `DataSlice.is_empty()`: no present item. -/
def isEmpty {α : Type} (xs : List (Option α)) : Bool := xs.all (·.isNone)

variable {F A V K C : Type}

/-- `LruCacheWrapper::Get` (clib.cc:70-129): look up every present key in order,
under one lock. Keys computed by `cache_fn` are all present. -/
def getAll (l : Lru C K V) : C → List K → List (Option V) × C
  | c, [] => ([], c)
  | c, k :: ks =>
    let r := l.peek c k
    let (rs, c') := getAll l (l.lookup c k) ks
    (r :: rs, c')

/-- The puts done by `LruCacheWrapper::Set` (clib.cc:138-193): positions where the
key or the value is missing are skipped (lines 174-180). Each put takes the lock
on its own (line 189), so other threads may run in between. -/
def putsOf : List (Option K) → List (Option V) → List (K × V)
  | some k :: ks, some v :: vs => (k, v) :: putsOf ks vs
  | _ :: ks, _ :: vs => putsOf ks vs
  | _, _ => []

/-- `x & is_hit_fn(x)` if there is an `is_hit_fn` and `x` is not empty
(lru_cache.py:113-114 and 125-126). -/
def filterHits (h : Option (List (Option V) → List Bool)) (xs : List (Option V)) :
    List (Option V) :=
  match h with
  | none => xs
  | some isHit => if isEmpty xs then xs else applyMask xs (isHit xs)

/-- What one call of a decorated function does after its lookups. `called` is the
slice `fn` was called with, if it was called. -/
structure Plan (A V K : Type) where
  called : Option (List (Option A))
  puts : List (K × V)
  res : List (Option V)

/-- The body of `wrapped_fn` after `cached_res = self._cache[keys]`
(lru_cache.py:113-128); `looked` is the result of the lookup. -/
def plan (e : Env F A V K) (f : F) (args : List (Option A)) (looked : List (Option V)) :
    Plan A V K :=
  let keys := args.map (e.key f)
  let cached := filterHits (e.isHit f) looked
  let fltr := cached.map (·.isNone)
  let uncachedArgs := applyMask args fltr
  if isEmpty uncachedArgs then { called := none, puts := [], res := cached }
  else
    let uncachedKeys := applyMask (keys.map some) fltr
    let uncachedRes := uncachedArgs.map (e.fn f)
    let res := coalesce cached uncachedRes
    let stored := filterHits (e.isHit f) uncachedRes
    { called := some uncachedArgs, puts := putsOf uncachedKeys stored, res := res }

/-- A thread is between calls, or has looked up its keys and still has to store
results and return. -/
inductive Thread (F A V K : Type) where
  | idle
  | busy (f : F) (args : List (Option A)) (called : Option (List (Option A)))
      (puts : List (K × V)) (res : List (Option V))

/-- A call that returned: the function, its argument, the slice the decorated
function was called with (if any), and the returned slice. -/
structure Returned (F A V : Type) where
  f : F
  args : List (Option A)
  called : Option (List (Option A))
  res : List (Option V)

/-- The cache shared by threads `Nat`, and the calls that have returned. -/
structure Sys (F A V K C : Type) where
  cache : C
  threads : Nat → Thread F A V K
  returned : List (Returned F A V)

/-- Atomic actions: a thread enters a decorated function and does its lookups; it
performs its next put; it returns; somebody clears the cache
(lru_cache.py:60-61); the cache drops whatever it likes is covered by `Lru`. -/
inductive Act (F A : Type) where
  | call (t : Nat) (f : F) (args : List (Option A))
  | put (t : Nat)
  | ret (t : Nat)
  | clear

def setThread (ts : Nat → Thread F A V K) (t : Nat) (s : Thread F A V K) :
    Nat → Thread F A V K := fun t' => if t' = t then s else ts t'

/-- One atomic action. Actions that are not enabled do nothing. -/
def step (e : Env F A V K) (l : Lru C K V) (s : Sys F A V K C) : Act F A → Sys F A V K C
  | .call t f args =>
    match s.threads t with
    | .busy .. => s
    | .idle =>
      let r := getAll l s.cache (args.map (e.key f))
      let p := plan e f args r.1
      { s with cache := r.2, threads := setThread s.threads t (.busy f args p.called p.puts p.res) }
  | .put t =>
    match s.threads t with
    | .busy f args called ((k, v) :: puts) res =>
      { s with cache := l.put s.cache k v,
               threads := setThread s.threads t (.busy f args called puts res) }
    | _ => s
  | .ret t =>
    match s.threads t with
    | .busy f args called [] res =>
      { s with threads := setThread s.threads t .idle,
               returned := s.returned ++ [⟨f, args, called, res⟩] }
    | _ => s
  | .clear => { s with cache := l.empty }

def initSys (l : Lru C K V) : Sys F A V K C :=
  { cache := l.empty, threads := fun _ => .idle, returned := [] }

def run (e : Env F A V K) (l : Lru C K V) (acts : List (Act F A)) : Sys F A V K C :=
  acts.foldl (step e l) (initSys l)

end Verif.CacheFn
