import Verif.MapFn.Model
import Verif.SliceOps.Spec

/-!
What `kd.functor.map` and `kd.functor.map_reduce_update` promise.
-/

namespace Verif.MapFn

open Verif.SliceOps (Edge Slice Compatible Wf view zipAt spread)

variable {α S C R : Type}

/-- `ts` are the slices `l`, each of them with the shape of `x`, the deepest one: each item is repeated
for all items in its place. -/
structure Aligned (l : List (Slice α)) (x : Slice α) (ts : List (Slice α)) : Prop where
  mem : x ∈ l
  deepest : ∀ s ∈ l, s.rank ≤ x.rank
  shape : ∀ t ∈ ts, Wf t ∧ t.edges = x.edges
  views : ts.map view = l.map fun s => zipAt s.rank spread (view s) (view x)

/-- The item of a slice at a position; positions are numbered in the order of the items. -/
def leafAt (s : Slice α) (i : Nat) : Option α := s.items.getD i none

/-- The functor is not called: it is missing, or an argument is and this matters. -/
def Skipped (includeMissing : Bool) (fn : Option α) (args : List (Datum α S)) : Prop :=
  fn = none ∨ (includeMissing = false ∧ ∃ a ∈ args, a.1 = none)

/-- What `map` does at one position: the calls, and the item or the error. -/
inductive MapsTo (K : Kit α S C) (names : List String) (includeMissing : Bool) :
    Option α → List (Datum α S) → List (Call α S) → Except Err (Datum α S) → Prop
  | skip {fn args} : Skipped includeMissing fn args →
      MapsTo K names includeMissing fn args [] (.ok (none, K.noneSchema))
  | item {f args x s} : ¬ Skipped includeMissing (some f) args →
      K.call f args names = .ok (.item x s) →
      MapsTo K names includeMissing (some f) args [⟨f, args, names⟩] (.ok (x, s))
  | failed {f args m} : ¬ Skipped includeMissing (some f) args →
      K.call f args names = .error m →
      MapsTo K names includeMissing (some f) args [⟨f, args, names⟩] (.error (.call m))
  | slice {f args es} : ¬ Skipped includeMissing (some f) args →
      K.call f args names = .ok (.slice es) →
      MapsTo K names includeMissing (some f) args [⟨f, args, names⟩] (.error (.notItem es))
  | notSlice {f args v} : ¬ Skipped includeMissing (some f) args →
      K.call f args names = .ok v → (v = .other ∨ ∃ b, v = .bag b) →
      MapsTo K names includeMissing (some f) args [⟨f, args, names⟩] (.error .notDataItem)

/-- What `map_reduce_update` does at one position: the calls, and the bag (if any) or the error. -/
inductive UpdatesWith (K : Kit α S C) (names : List String) (includeMissing : Bool) :
    Option α → List (Datum α S) → List (Call α S) → Except Err (Option Nat) → Prop
  | skip {fn args} : Skipped includeMissing fn args →
      UpdatesWith K names includeMissing fn args [] (.ok none)
  | bag {f args b} : ¬ Skipped includeMissing (some f) args →
      K.call f args names = .ok (.bag b) →
      UpdatesWith K names includeMissing (some f) args [⟨f, args, names⟩] (.ok b)
  | failed {f args m} : ¬ Skipped includeMissing (some f) args →
      K.call f args names = .error m →
      UpdatesWith K names includeMissing (some f) args [⟨f, args, names⟩] (.error (.call m))
  | notBag {f args v} : ¬ Skipped includeMissing (some f) args →
      K.call f args names = .ok v → (∀ b, v ≠ .bag b) →
      UpdatesWith K names includeMissing (some f) args [⟨f, args, names⟩] (.error .notBag)

/-- The first `n` positions went well: the calls in the order of the positions, and what each position
gave. -/
def Done (P : Nat → List (Call α S) → Except Err R → Prop) (n : Nat) (calls : List (Call α S))
    (rs : List R) : Prop :=
  rs.length = n ∧ ∃ cs : List (List (Call α S)), cs.length = n ∧ calls = cs.flatten ∧
    ∀ (i : Nat) c r, cs[i]? = some c → rs[i]? = some r → P i c (.ok r)

/-- The first position that fails ends the work. -/
def Stopped (P : Nat → List (Call α S) → Except Err R → Prop) (n : Nat) (calls : List (Call α S))
    (e : Err) : Prop :=
  ∃ k < n, ∃ before rs c, Done P k before rs ∧ P k c (.error e) ∧ calls = before ++ c

/-- An item in the schema `s`: as it is, if this is its schema, and cast otherwise. -/
def InSchema (K : Kit α S C) (s : S) (d : Datum α S) (r : Except String (Option α)) : Prop :=
  (d.2 = s ∧ r = .ok d.1) ∨ (d.2 ≠ s ∧ r = K.cast s d)

/-- The items of all positions as one slice: an item of its own schema for rank 0, and otherwise all of
them in their common schema. -/
inductive Combined (K : Kit α S C) (edges : List Edge) (ds : List (Datum α S)) :
    Except Err (Slice α × S) → Prop
  | item {x s} : edges = [] → ds = [(x, s)] → Combined K edges ds (.ok (⟨[], [x]⟩, s))
  | empty : edges ≠ [] → ds = [] → Combined K edges ds (.ok (⟨edges, []⟩, K.noneSchema))
  | noCommonSchema : edges ≠ [] → ds ≠ [] → K.common (ds.map Prod.snd) = none →
      Combined K edges ds (.error .noCommonSchema)
  | castFails {s k d m} : edges ≠ [] → K.common (ds.map Prod.snd) = some s →
      (∀ (i : Nat) d, i < k → ds[i]? = some d → ∃ x, InSchema K s d (.ok x)) →
      ds[k]? = some d → InSchema K s d (.error m) → Combined K edges ds (.error (.cast m))
  | slice {s xs} : edges ≠ [] → ds ≠ [] → K.common (ds.map Prod.snd) = some s →
      xs.length = ds.length →
      (∀ (i : Nat) d x, ds[i]? = some d → xs[i]? = some x → InSchema K s d (.ok x)) →
      Combined K edges ds (.ok (⟨edges, xs⟩, s))

/-- The first appearances. -/
def firsts : List Nat → List Nat
  | [] => []
  | b :: bs => b :: (firsts bs).filter (· ≠ b)

/-- Bags merged one after the other. -/
inductive Merged (K : Kit α S C) : C → List Nat → Except Err (ResultBag C) → Prop
  | done (c) : Merged K c [] (.ok (.merged c))
  | step {c b bs c' r} : K.mergeInplace c b = .ok c' → Merged K c' bs r → Merged K c (b :: bs) r
  | conflict {c b bs m} : K.mergeInplace c b = .error m → Merged K c (b :: bs) (.error (.merge m))

/-- The bags of all positions as one: null if there is none, the bag itself if there is only one, and
otherwise a new bag, into which each bag was merged once, in the order of their first appearance. -/
inductive Reduced (K : Kit α S C) (bs : List Nat) : Except Err (ResultBag C) → Prop
  | null : bs = [] → Reduced K bs (.ok .null)
  | same {b} : b ∈ bs → (∀ a ∈ bs, a = b) → Reduced K bs (.ok (.same b))
  | merged {a b r} : a ∈ bs → b ∈ bs → a ≠ b → Merged K K.emptyBag (firsts bs) r → Reduced K bs r

end Verif.MapFn
