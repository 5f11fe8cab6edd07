import Verif.BagAttr.Theorems
/-
Data bags as users see them: `DataBag` (/repo/koladata/data_bag.h, data_bag.cc), a
handle for a `DataBagImpl` with fallbacks.

In `Verif.BagAttr` a `DataBagImpl` is a value with the values of all its parents.
Here implementations are objects with an address, their index, and a parent
pointer; so a modification of an implementation is seen by all that were forked
from it.  Bags are numbered in the order of their creation.

Simplified: one thread; nothing is ever freed; only attributes (lists and dicts
are left out).  The state in which an operation that fails leaves a bag is not
known to the model: `crash` is an arbitrary function of the bag.
-/

namespace Verif.BagWorld

open Verif.BagAttr

/-- `DataBagImpl` (internal/data_bag.h 1030-1074): its own data, and
`parent_data_bag_`. -/
structure Impl where
  frozen : Bool
  layer : Layer
  parent : Option Nat
deriving DecidableEq, Repr

/-- `DataBag` (data_bag.h 245-254): `impl_`, `fallbacks_`, `is_mutable_`,
`forked_`. -/
structure DataBag where
  impl : Nat
  fallbacks : List Nat
  mutbl : Bool
  forked : Bool
deriving DecidableEq, Repr

structure World where
  impls : List Impl
  bags : List DataBag
deriving DecidableEq, Repr

inductive WErr where
  | noBag                    -- not an error of the code: there is no such bag
  | immutable                -- "cannot modify/create item(s) on an immutable DataBag"
  | mutableFallback          -- "fallbacks must be immutable"
  | hasFallbacks             -- "forking with fallbacks is not supported", "DataBag shouldn't have fallbacks"
  | impl (e : Err)           -- an error of `DataBagImpl`
deriving DecidableEq, Repr

/-! ### Implementations -/

/-- The layers of an implementation: its own one and those of its parents. -/
def layersOf (impls : List Impl) (i : Nat) : List Layer :=
  match impls[i]? with
  | none => []
  | some m =>
    m.layer :: (match m.parent with
      | none => []
      | some p => if _h : p < i then layersOf impls p else [])
termination_by i

/-- The layers of a parent pointer. -/
def parentLayers (impls : List Impl) : Option Nat → List Layer
  | none => []
  | some p => layersOf impls p

/-- An implementation as the functions of `Verif.BagAttr` see it. -/
def bagAt (impls : List Impl) (i : Nat) : Option Bag :=
  impls[i]?.map fun m =>
    { frozen := m.frozen, top := m.layer, parents := parentLayers impls m.parent }

/-- Writes the result of an operation that modifies an implementation in place: only its own
data changes. -/
def store (impls : List Impl) (i : Nat) (b : Bag) : List Impl :=
  impls.modify i fun m => { m with layer := b.top }

/-- `DataBagImpl::Freeze`. -/
def freezeImpl (impls : List Impl) (i : Nat) : List Impl :=
  impls.modify i fun m => { m with frozen := true }

/-- `DataBagImpl::CreateEmptyDatabag` (internal/data_bag.cc 480-482). -/
def emptyImpl (id : Nat) : Impl :=
  { frozen := false, layer := (emptyBag id).top, parent := none }

/-- `DataBagImpl::PartiallyPersistentFork` (internal/data_bag.cc 484-489); the new
implementation is the last one. -/
def forkImpl (impls : List Impl) (i : Nat) : List Impl :=
  impls ++ [{ emptyImpl impls.length with
    parent := match impls[i]? with
      | none => none
      | some m => if m.layer.isPristine then m.parent else some i }]

/-! ### Fallbacks -/

/-- How much is left to visit: only used to show that the loop below ends. -/
def unseen (bags : List DataBag) (seen : List Nat) : Nat :=
  ((List.range bags.length).map fun i =>
    if i ∈ seen then 0 else ((bags[i]?).map (·.fallbacks.length + 1)).getD 0).sum

theorem unseen_le {bags : List DataBag} {seen : List Nat} {f : Nat} {d : DataBag}
    (hf : bags[f]? = some d) (hs : f ∉ seen) :
    unseen bags (seen ++ [f]) + (d.fallbacks.length + 1) ≤ unseen bags seen := by
  unfold unseen
  have hlt : f < bags.length := (List.getElem?_eq_some_iff.1 hf).1
  have hmem : f ∈ List.range bags.length := List.mem_range.2 hlt
  generalize List.range bags.length = l at hmem
  have hone : ∀ x : Nat, (if x ∈ seen ++ [f] then 0 else ((bags[x]?).map (·.fallbacks.length + 1)).getD 0) ≤
      if x ∈ seen then 0 else ((bags[x]?).map (·.fallbacks.length + 1)).getD 0 := by
    intro x
    by_cases hx : x ∈ seen
    · simp [hx]
    · by_cases hxf : x = f <;> simp [hx, hxf]
  have hle : ∀ l : List Nat,
      (l.map fun x => if x ∈ seen ++ [f] then 0 else ((bags[x]?).map (·.fallbacks.length + 1)).getD 0).sum ≤
      (l.map fun x => if x ∈ seen then 0 else ((bags[x]?).map (·.fallbacks.length + 1)).getD 0).sum := by
    intro l
    induction l with
    | nil => simp
    | cons x l ih =>
      rw [List.map_cons, List.map_cons, List.sum_cons, List.sum_cons]
      exact Nat.add_le_add (hone x) ih
  induction l with
  | nil => cases hmem
  | cons x l ih =>
    rw [List.map_cons, List.map_cons, List.sum_cons, List.sum_cons]
    by_cases hx : x = f
    · subst hx
      have h1 := hle l
      rw [if_pos (by simp), if_neg hs, hf]
      simp only [Option.map_some, Option.getD_some]
      omega
    · have h1 := ih (by
        rcases List.mem_cons.1 hmem with h | h
        · exact absurd h.symm hx
        · exact h)
      have h2 := hone x
      omega

/-- The loop of `VisitFallbacks` (data_bag.cc 198-218): the bags on which
`visit_fn` is called, in order. -/
def visit (bags : List DataBag) (stack seen : List Nat) : List Nat :=
  match stack with
  | [] => []
  | f :: rest =>
    match hf : bags[f]? with
    | none => visit bags rest seen
    | some d =>
      if hs : f ∈ seen then visit bags rest seen
      else f :: visit bags (d.fallbacks ++ rest) (seen ++ [f])
termination_by unseen bags seen + stack.length
decreasing_by
  · simp
  · simp
  · have := unseen_le hf hs
    simp only [List.length_append, List.length_cons]
    omega

/-- `FlattenFallbackFinder` (data_bag.h 265-291): the bags behind a bag. -/
def flatFallbacks (w : World) (h : Nat) : List Nat :=
  match w.bags[h]? with
  | none => []
  | some d => if d.fallbacks.isEmpty then [] else visit w.bags d.fallbacks [h]

/-- The implementation of a bag. -/
def implOf (w : World) (h : Nat) : Option Bag :=
  w.bags[h]?.bind fun d => bagAt w.impls d.impl

/-- The implementation of a bag and those of its fallbacks, as they are passed to
the functions that read. -/
def readers (w : World) (h : Nat) : List Bag :=
  (h :: flatFallbacks w h).filterMap (implOf w)

/-- What a reader of an attribute of an object sees in a bag. -/
def read (w : World) (h : Nat) (o : Obj) (attr : Attr) : Cell :=
  getWithRemoved (readers w h) o attr

/-! ### New bags -/

/-- `DataBag()` and `DataBag(immutable_t)` (data_bag.h 66-80, 228-238). -/
def newBag (w : World) (mutbl : Bool) : World :=
  { impls := w.impls ++ [{ emptyImpl w.impls.length with frozen := !mutbl }]
    bags := w.bags ++ [{ impl := w.impls.length, fallbacks := [], mutbl := mutbl, forked := false }] }

/-- `DataBag::FallbackFreeFork` (data_bag.cc 68-93). -/
def fallbackFreeFork (w : World) (h : Nat) (d : DataBag) (immutable : Bool) : World :=
  let n := w.impls.length
  let impls := freezeImpl (forkImpl w.impls d.impl) d.impl
  let impls := if immutable then freezeImpl impls n else impls
  let bags := if d.mutbl then w.bags.modify h fun d => { d with forked := true } else w.bags
  { impls := impls
    bags := bags ++ [{ impl := n, fallbacks := [], mutbl := !immutable, forked := false }] }

/-- `DataBag::Fork` (data_bag.cc 95-102). -/
def fork (w : World) (h : Nat) (immutable : Bool) : Except WErr World :=
  match w.bags[h]? with
  | none => .error .noBag
  | some d =>
    if d.fallbacks ≠ [] then .error .hasFallbacks
    else .ok (fallbackFreeFork w h d immutable)

/-- `DataBag::Freeze` (data_bag.cc 104-111); also the bag that is returned. -/
def freeze (w : World) (h : Nat) : Except WErr (World × Nat) :=
  match w.bags[h]? with
  | none => .error .noBag
  | some d =>
    if d.mutbl then .ok (fallbackFreeFork w h d true, w.bags.length)
    else .ok (w, h)

/-- `DataBag::UnsafeMakeImmutable` (data_bag.h 120-123). -/
def makeImmutable (w : World) (h : Nat) : Except WErr World :=
  match w.bags[h]? with
  | none => .error .noBag
  | some d => .ok
    { impls := freezeImpl w.impls d.impl
      bags := w.bags.modify h fun d => { d with mutbl := false } }

/-- `DataBag::ImmutableEmptyWithFallbacks` (data_bag.cc 50-66); `none` is a null
pointer. -/
def withFallbacks (w : World) (fallbacks : List (Option Nat)) : Except WErr World :=
  let fs := fallbacks.filterMap id
  if fs.any fun f => (w.bags[f]?).isNone then .error .noBag
  else if fs.any fun f => (w.bags[f]?).any (·.mutbl) then .error .mutableFallback
  else .ok
    { impls := w.impls ++ [{ emptyImpl w.impls.length with frozen := true }]
      bags := w.bags ++ [{ impl := w.impls.length, fallbacks := fs, mutbl := false, forked := false }] }

/-! ### Modifications -/

/-- `DataBag::GetMutableImpl` (data_bag.h 88-106). -/
def getMutableImpl (w : World) (h : Nat) : Except WErr World :=
  match w.bags[h]? with
  | none => .error .noBag
  | some d =>
    if !d.mutbl then .error .immutable
    else if d.forked then .ok
      { impls := forkImpl (freezeImpl w.impls d.impl) d.impl
        bags := w.bags.modify h fun d => { d with impl := w.impls.length, forked := false } }
    else .ok w

/-- The modifications of attributes. -/
inductive WriteOp where
  | setAttr (o : ObjItem) (attr : Attr) (v : Item)
  | setSlice (objs : Objs) (attr : Attr) (values : Slice)
  | assign (objs : Objs) (full : Option Alloc) (attr : Attr) (values : Slice)
  | create (a : Alloc) (fields : List (Attr × Slice))
  | createOne (o : Obj) (fields : List (Attr × Item))
deriving DecidableEq, Repr

/-- The functions of `DataBagImpl` the modifications call. -/
def WriteOp.run (op : WriteOp) (b : Bag) : Except Err Bag :=
  match op with
  | .setAttr o attr v => BagAttr.setAttr b o attr v
  | .setSlice objs attr values => setAttrSlice b objs attr values
  | .assign objs full attr values => assignAttr b objs full attr values
  | .create a fields => (createObjects b a fields).map (·.1)
  | .createOne o fields => createObject b o fields

/-- Modifies the implementation of a mutable bag by a function that may fail. -/
def modifyImpl (w : World) (h : Nat) (crash : Bag → Bag) (f : Bag → Except Err Bag) :
    World × Option Err :=
  match w.bags[h]? with
  | none => (w, none)
  | some d =>
    match bagAt w.impls d.impl with
    | none => (w, none)
    | some b =>
      match f b with
      | .ok b' => ({ w with impls := store w.impls d.impl b' }, none)
      | .error e => ({ w with impls := store w.impls d.impl (crash b) }, some e)

/-- A modification of a bag: `GetMutableImpl` and a function of `DataBagImpl`.  The
world is the one after it, also if it fails. -/
def write (w : World) (h : Nat) (op : WriteOp) (crash : Bag → Bag) : World × Option WErr :=
  match getMutableImpl w h with
  | .error e => (w, some e)
  | .ok w =>
    let r := modifyImpl w h crash op.run
    (r.1, r.2.map .impl)

/-- The loop of `MergeFallbacksToForkedImpl` (data_bag.cc 136-138) over the
implementations of the fallbacks; `n` is the one that is merged into. -/
def mergeAll (same : SameSources) (impls : List Impl) (n : Nat) : List Nat → Except Err (List Impl)
  | [] => .ok impls
  | f :: fs =>
    match bagAt impls n, bagAt impls f with
    | some b, some other =>
      match mergeInplace same b other .keep with
      | .error e => .error e
      | .ok b' => mergeAll same (store impls n b') n fs
    | _, _ => mergeAll same impls n fs

/-- `MergeFallbacksToForkedImpl` (data_bag.cc 128-140): the implementation is the one
after the last one. -/
def mergeFallbacksToForked (same : SameSources) (w : World) (h : Nat) (d : DataBag) :
    Except Err (List Impl) :=
  mergeAll same (forkImpl w.impls d.impl) w.impls.length
    ((flatFallbacks w h).filterMap fun f => (w.bags[f]?).map (·.impl))

/-- `DataBag::MergeFallbacks` (data_bag.cc 144-151). -/
def mergeFallbacks (same : SameSources) (w : World) (h : Nat) : Except WErr World :=
  match w.bags[h]? with
  | none => .error .noBag
  | some d =>
    if d.fallbacks.isEmpty then .ok (fallbackFreeFork w h d false)
    else
      match mergeFallbacksToForked same w h d with
      | .error e => .error (.impl e)
      | .ok impls => .ok
        { impls := impls
          bags := w.bags ++
            [{ impl := w.impls.length, fallbacks := [], mutbl := true, forked := false }] }

/-- The implementation of the other bag in `MergeInplace` and
`CreateOverwritingMergeUpdate` (data_bag.cc 166-170, 182-187): its own one, or a new
one with the fallbacks merged.  Returns the implementations and its index. -/
def otherImpl (same : SameSources) (w : World) (h : Nat) (d : DataBag) :
    Except Err (List Impl × Nat) :=
  if d.fallbacks.isEmpty then .ok (w.impls, d.impl)
  else (mergeFallbacksToForked same w h d).map (·, w.impls.length)

/-- `DataBag::MergeInplace` (data_bag.cc 153-171).  Simplified: one policy for
everything (data and schemas are attributes). -/
def mergeBags (same : SameSources) (w : World) (h other : Nat) (p : Policy) (crash : Bag → Bag) :
    World × Option WErr :=
  match w.bags[other]? with
  | none => (w, some .noBag)
  | some _ =>
    match getMutableImpl w h with
    | .error e => (w, some e)
    | .ok w =>
      match w.bags[other]? with
      | none => (w, some .noBag)
      | some d =>
        match otherImpl same w other d with
        | .error e => (w, some (.impl e))
        | .ok r =>
          match bagAt r.1 r.2 with
          | none => (w, some .noBag)
          | some o =>
            let r := modifyImpl { w with impls := r.1 } h crash (fun b => mergeInplace same b o p)
            (r.1, r.2.map .impl)

/-- The policy of `DataBag::MergeInplace` (data_bag.cc 157-165). -/
def policyOf (overwrite allowConflicts : Bool) : Policy :=
  if !allowConflicts then .raise else if overwrite then .overwrite else .keep

/-- `DataBag::CreateOverwritingMergeUpdate` (data_bag.cc 173-193): the update is the
last bag. -/
def createUpdateBag (same : SameSources) (w : World) (h other : Nat) : Except WErr World :=
  match w.bags[h]?, w.bags[other]? with
  | some d, some d' =>
    if d.fallbacks ≠ [] then .error .hasFallbacks
    else
      match otherImpl same w other d' with
      | .error e => .error (.impl e)
      | .ok r =>
        match bagAt r.1 d.impl, bagAt r.1 r.2 with
        | some b, some o =>
          match createUpdate same b o (r.1.length + 1) r.1.length with
          | .error e => .error (.impl e)
          | .ok u => .ok
            { impls := r.1 ++ [{ frozen := true, layer := u.top, parent := none }]
              bags := w.bags ++
                [{ impl := r.1.length, fallbacks := [], mutbl := false, forked := false }] }
        | _, _ => .error .noBag
  | _, _ => .error .noBag

/-! ### Histories -/

inductive Op where
  | newBag (mutbl : Bool)
  | fork (h : Nat) (immutable : Bool)
  | freeze (h : Nat)
  | makeImmutable (h : Nat)
  | withFallbacks (fallbacks : List (Option Nat))
  | write (h : Nat) (op : WriteOp)
  | mergeFallbacks (h : Nat)
  | merge (h other : Nat) (p : Policy)
  | update (h other : Nat)
deriving DecidableEq, Repr

def okOr (w : World) : Except WErr World → World × Option WErr
  | .ok w' => (w', none)
  | .error e => (w, some e)

/-- One operation: the world after it, and its error. -/
def step (same : SameSources) (crash : Bag → Bag) (w : World) (op : Op) : World × Option WErr :=
  match op with
  | .newBag m => (newBag w m, none)
  | .fork h i => okOr w (fork w h i)
  | .freeze h => okOr w ((freeze w h).map (·.1))
  | .makeImmutable h => okOr w (makeImmutable w h)
  | .withFallbacks fs => okOr w (withFallbacks w fs)
  | .write h op => write w h op crash
  | .mergeFallbacks h => okOr w (mergeFallbacks same w h)
  | .merge h o p => mergeBags same w h o p crash
  | .update h o => okOr w (createUpdateBag same w h o)

def emptyWorld : World := { impls := [], bags := [] }

end Verif.BagWorld
