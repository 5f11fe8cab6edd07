import Verif.BagManager.Model

/-!
What a user of the bag manager sees: every directory has a history of committed
versions, a version is a list of bags, and only committed operations extend it.
-/
namespace Verif.BagManager

/-- A bag as its users know it. -/
structure Entry (N X B : Type) where
  name : N
  deps : List N
  custom : Option X
  content : B
  deriving Repr, DecidableEq

/-- All committed versions of every directory; version `n` is the state after update
number `n`. -/
abbrev Hist (D N X B : Type) := D → List (List (Entry N X B))

variable {D N X B : Type} [DecidableEq D] [DecidableEq N]

/-- The entries of a version, read from the file system as a manager with metadata
`m` does; `none` for a bag that cannot be read. -/
def entriesOf (fs : Fs D N X B) (d : D) (m : Metadata D N X) : List (Option (Entry N X B)) :=
  m.bags.map fun b =>
    (readBag fs (bagPath d b)).map fun c =>
      { name := b.name, deps := b.deps, custom := b.custom, content := c }

/-- What a user finds who opens directory `d` with `create_from_dir` and reads all
bags; `none` if opening raises. -/
def opened (fs : Fs D N X B) (d : D) : Option (List (Option (Entry N X B))) :=
  (createFromDir fs d).map (entriesOf fs d)

/-- Bag `x` depends directly or indirectly on `y`, or is `y`. -/
inductive DependsOn (es : List (Entry N X B)) : N → N → Prop
  | refl (x : N) : DependsOn es x x
  | step {e : Entry N X B} {y z : N} :
      e ∈ es → y ∈ e.deps → DependsOn es y z → DependsOn es e.name z

/-- `x` is needed for the requested names: it is a dependency of a requested bag or
(when asked) of a bag that depends on a requested bag. -/
def Needed (es : List (Entry N X B)) (requested : List N) (withAllDependents : Bool) (x : N) :
    Prop :=
  ∃ r ∈ requested, ∃ s, (s = r ∨ (withAllDependents = true ∧ DependsOn es s r)) ∧
    DependsOn es s x

/-- The bags may be added to `es` in this order: names are new, dependencies refer
to earlier bags. -/
def Valid (es : List (Entry N X B)) (adds : List (ToAdd N X B)) : Prop :=
  ∀ (i : Nat) (a : ToAdd N X B), adds[i]? = some a →
    (∀ e ∈ es, e.name ≠ a.name) ∧
    (∀ (j : Nat) (b : ToAdd N X B), j < i → adds[j]? = some b → b.name ≠ a.name) ∧
    (∀ y ∈ a.deps, (∃ e ∈ es, e.name = y) ∨
      ∃ (j : Nat) (b : ToAdd N X B), j < i ∧ adds[j]? = some b ∧ b.name = y)

/-- Names are unique and dependencies are earlier bags. -/
def WellFormed (es : List (Entry N X B)) : Prop :=
  (es.map (·.name)).Nodup ∧
  ∀ (i : Nat) (e : Entry N X B), es[i]? = some e → ∀ y ∈ e.deps,
    ∃ (j : Nat) (f : Entry N X B), j < i ∧ es[j]? = some f ∧ f.name = y

def ToAdd.entry (a : ToAdd N X B) : Entry N X B :=
  { name := a.name, deps := a.deps, custom := a.custom, content := a.bag }

/-- The current version. -/
def latest (vs : List (List (Entry N X B))) : List (Entry N X B) := vs.getLast?.getD []

def push (h : Hist D N X B) (d : D) (v : List (Entry N X B)) : Hist D N X B :=
  fun d' => if d' = d then h d ++ [v] else h d'

open Classical in
/-- The effect of an event on the histories: only commits have one. A new manager
starts empty, an add appends the given bags with their contents, a branch starts
with the needed bags of the source version. -/
noncomputable def applyEvent (h : Hist D N X B) : Event D N X B → Hist D N X B
  | .committed _ d _ .create => push h d []
  | .committed _ d _ (.add adds) => push h d (latest (h d) ++ adds.map ToAdd.entry)
  | .committed _ d _ (.branch src ver ns wd) =>
    let es := (h src).getD ver []
    push h d (es.filter fun e => Needed es ns wd e.name)
  | _ => h

/-- The histories after the observed events. -/
noncomputable def replay (evs : List (Event D N X B)) : Hist D N X B :=
  evs.foldl applyEvent fun _ => []

/-- A commit continues the history of its directory: update numbers are consecutive,
a new manager or branch starts in a directory without history, an add is valid for
the version that it extends, which is the latest one. -/
def Legal (h : Hist D N X B) : Event D N X B → Prop
  | .committed _ d n .create => n = 0 ∧ h d = []
  | .committed _ d n (.add adds) => n = (h d).length ∧ n ≠ 0 ∧ Valid (latest (h d)) adds
  | .committed _ d n (.branch src ver ns _) =>
    n = 0 ∧ h d = [] ∧ ∃ es, (h src)[ver]? = some es ∧ ∀ x ∈ ns, ∃ e ∈ es, e.name = x
  | _ => True

/-- A serial schedule: once a later process has acted, an earlier one does not act
any more (it has crashed or is not used any more). -/
def Serial (acts : List (Act D N X B)) : Prop := acts.Pairwise fun a b => a.pid ≤ b.pid

end Verif.BagManager
