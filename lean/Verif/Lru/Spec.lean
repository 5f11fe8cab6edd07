import Verif.Lru.Model

/-!
Specification vocabulary for C01-C03. Nothing here refers to how the cache
evicts, only to which entries it holds.
-/
namespace Verif.Lru

variable {K V : Type} [DecidableEq K]

/-- What a caller would see for `k` now, together with the size it was stored
with; reading it this way does not touch the recency order. -/
def peek (c : Cache K V) (k : K) : Option (Entry V) := c.cache.get? k

/-- The sum of the size estimates of a list of entries. -/
def bytes (l : List (K × Entry V)) : Int := (l.map fun p => p.2.numBytes).sum

/-- A cache state a program can produce: a constructor call that did not raise,
followed by any calls. -/
def Reachable (c : Cache K V) : Prop :=
  ∃ (max : Int) (c₀ : Cache K V) (ops : List (Op K V)),
    init K V max = .ok c₀ ∧ c = run c₀ ops

/-- All size estimates given to `set` are non-negative. -/
def NonnegSizes (ops : List (Op K V)) : Prop :=
  ∀ k v n, Op.set k v n ∈ ops → 0 ≤ n

/-- `kept` is what remains of `l` (oldest entry first) after evicting the
shortest run of oldest entries that makes the rest at most `m` bytes. -/
def ShortestEviction (m : Int) (l kept : List (K × Entry V)) : Prop :=
  ∃ evicted, l = evicted ++ kept ∧ bytes kept ≤ m ∧
    ∀ fewer spared, evicted = fewer ++ spared → spared ≠ [] → m < bytes (spared ++ kept)

end Verif.Lru
