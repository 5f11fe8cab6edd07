import Verif.Functor.Model

/-!
Model of the metadata cache of bags (`koladata/data_bag.h`) as it is used by calls of functors
(`koladata/functor/call.cc`). Calls of several threads are interleaved: a call first looks in the
cache and processes the functor if there is nothing, and stores the result in the cache later.
-/

namespace Verif.Functor

variable {Op V : Type}

/-- A `DataBag` (data_bag.h:66-263): the functors in it by their object id, the bags that
`FlattenFallbackFinder` finds, and the cache of processed functors. Simplification: a functor is in
one bag with all of its attributes. -/
structure Bag (Op V : Type) where
  isMutable : Bool
  own : List (Nat × Fn Op V)
  flat : List Nat
  cache : List (Nat × Processed Op V)

/-- A call between the lookup and the storing (call.cc:118-123). -/
structure Pending (Op V : Type) where
  bag : Nat
  id : Nat
  args : List V
  kwnames : List String
  isFn : Bool
  cached : Option (Processed Op V)
  processed : Except Err (Processed Op V)

/-- Bags, and calls that have begun. -/
structure World (Op V : Type) where
  bags : List (Bag Op V)
  pending : List (Nat × Pending Op V)

/-- What users and threads do. -/
inductive Action (Op V : Type) where
  | newBag (isMutable : Bool)
  | set (bag id : Nat) (F : Fn Op V)
  | makeImmutable (bag : Nat)
  | withFallbacks (bags : List Nat)
  | fork (bag : Nat) (immutable : Bool)
  | begin (call bag id : Nat) (args : List V) (kwnames : List String)
  | finish (call : Nat)

/-- The functor with an id, as a user of the bag sees it: in the bag, else in the first of the
fallbacks that has it. -/
def World.find (w : World Op V) (id : Nat) : List Nat → Option (Fn Op V)
  | [] => none
  | b :: bs =>
    match w.bags[b]? with
    | none => w.find id bs
    | some bag =>
      match bag.own.lookup id with
      | some F => some F
      | none => w.find id bs

/-- The bag and its fallbacks. -/
def World.chain (w : World Op V) (b : Nat) : List Nat :=
  match w.bags[b]? with
  | none => []
  | some bag => b :: bag.flat

/-- What a user of a bag sees. -/
def World.visible (w : World Op V) (b id : Nat) : Option (Fn Op V) := w.find id (w.chain b)

/-- `GetMutableImpl` (data_bag.h:90-107) and a write to the attributes of a functor. -/
def setFn (w : World Op V) (b id : Nat) (F : Fn Op V) : World Op V :=
  match w.bags[b]? with
  | none => w
  | some bag =>
    if bag.isMutable then
      { w with bags := w.bags.set b { bag with own := (id, F) :: bag.own } }
    else w

/-- `UnsafeMakeImmutable` (data_bag.h:120-123). -/
def makeImmutable (w : World Op V) (b : Nat) : World Op V :=
  match w.bags[b]? with
  | none => w
  | some bag => { w with bags := w.bags.set b { bag with isMutable := false } }

/-- No bag in the list is mutable, and all of them exist. -/
def World.allImmutable (w : World Op V) (bs : List Nat) : Bool :=
  bs.all fun b =>
    match w.bags[b]? with
    | none => false
    | some bag => !bag.isMutable

/-- `ImmutableEmptyWithFallbacks` (data_bag.h:128-131): an error if a fallback is mutable. -/
def withFallbacks (w : World Op V) (bs : List Nat) : World Op V :=
  if w.allImmutable bs then
    { w with bags := w.bags ++ [⟨false, [], bs.flatMap w.chain, []⟩] }
  else w

/-- `Fork` (data_bag.cc:95-102) and `Freeze` (data_bag.cc:104-111) of a bag without fallbacks: a new
bag with the same content and an empty cache. -/
def fork (w : World Op V) (b : Nat) (immutable : Bool) : World Op V :=
  match w.bags[b]? with
  | none => w
  | some bag =>
    if bag.flat.isEmpty then { w with bags := w.bags ++ [⟨!immutable, bag.own, [], []⟩] } else w

/-- `GetCachedMetadataOrNull` (data_bag.h:161-170). -/
def World.cached (w : World Op V) (b id : Nat) : Option (Processed Op V) :=
  match w.bags[b]? with
  | none => none
  | some bag => bag.cache.lookup id

/-- `SetCachedMetadata` (data_bag.h:203-216): the stored value. Only immutable bags store, and only
the first value is kept. -/
def setCached (w : World Op V) (b id : Nat) (P : Processed Op V) : World Op V × Processed Op V :=
  match w.bags[b]? with
  | none => (w, P)
  | some bag =>
    if bag.isMutable then (w, P)
    else
      match bag.cache.lookup id with
      | some P' => (w, P')
      | none => ({ w with bags := w.bags.set b { bag with cache := (id, P) :: bag.cache } }, P)

/-- The first part of a call (call.cc:88-121); `none` is an object without attributes. -/
def beginCall (kit : Nat → Kit Op V) (w : World Op V) (b id : Nat) (args : List V)
    (kwnames : List String) : Pending Op V :=
  match w.visible b id with
  | none => ⟨b, id, args, kwnames, false, none, .error .notFunctor⟩
  | some F => ⟨b, id, args, kwnames, isFunctor F, w.cached b id, process (kit b) F⟩

/-- The second part of a call (call.cc:121-139). -/
def finishCall (kit : Nat → Kit Op V) (w : World Op V) (p : Pending Op V) :
    World Op V × Except Err V :=
  if p.isFn = true then
    match p.cached with
    | some P => (w, runProcessed (kit p.bag) P p.args p.kwnames)
    | none =>
      match p.processed with
      | .error e => (w, .error e)
      | .ok P =>
        let (w, P) := setCached w p.bag p.id P
        (w, runProcessed (kit p.bag) P p.args p.kwnames)
  else (w, .error .notFunctor)

/-- One action, with the result of a call that finishes. -/
def act (kit : Nat → Kit Op V) (w : World Op V) : Action Op V → World Op V × Option (Except Err V)
  | .newBag isMutable => ({ w with bags := w.bags ++ [⟨isMutable, [], [], []⟩] }, none)
  | .set b id F => (setFn w b id F, none)
  | .makeImmutable b => (makeImmutable w b, none)
  | .withFallbacks bs => (withFallbacks w bs, none)
  | .fork b immutable => (fork w b immutable, none)
  | .begin c b id args kwnames =>
    ({ w with pending := (c, beginCall kit w b id args kwnames) :: w.pending }, none)
  | .finish c =>
    match w.pending.lookup c with
    | none => (w, none)
    | some p =>
      let (w, r) := finishCall kit { w with pending := w.pending.filter fun e => e.1 != c } p
      (w, some r)

/-- A history from the beginning. -/
def acts (kit : Nat → Kit Op V) : World Op V → List (Action Op V) → World Op V
  | w, [] => w
  | w, a :: as => acts kit (act kit w a).1 as

end Verif.Functor
