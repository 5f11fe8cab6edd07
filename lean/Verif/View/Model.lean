/-!
Model of `kv.View` (`/repo/py/koladata/ext/view/view.py`) and of the C++ helper
`map_structures` (`/repo/py/koladata/ext/view/clib.cc`).

Simplifications.
* Python objects are `None`, `kv.present`, tuples, mutable lists (references into a
  heap) and atoms. What iterating over an atom gives is the parameter `iterAtom`.
* Functions given to `map` take and change the heap, and may raise.
* Automatic boxing (`box`) is not modelled: arguments are views already. A non-view
  argument behaves like a view of depth 0.
* Python's `==` on items and `<` on keys are parameters.
-/
namespace Verif.View

/-- Python objects. -/
inductive Obj (A : Type) where
  | none
  | present                         -- mask_constants.present
  | atom (a : A)
  | tup (items : List (Obj A))
  | ref (addr : Nat)                -- a python list
  deriving Repr

/-- Exceptions; `user` is what the mapped function raises. `stillRunning` is not an
exception: the bound on the recursion depth of the model was reached. -/
inductive Err (E : Type) where
  | typeError
  | valueError
  | user (e : E)
  | stillRunning
  deriving Repr, DecidableEq

/-- The contents of the python lists. -/
abbrev Heap (A : Type) := List (List (Obj A))

/-- Computations that use the heap and may raise. -/
abbrev M (A E α : Type) := Heap A → Except (Err E) (α × Heap A)

variable {A E : Type}

/-- Run the computations one after the other. -/
def seqM {α : Type} : List (M A E α) → M A E (List α)
  | [], h => .ok ([], h)
  | c :: cs, h =>
    match c h with
    | .error e => .error e
    | .ok (r, h1) =>
      match seqM cs h1 with
      | .error e => .error e
      | .ok (rs, h2) => .ok (r :: rs, h2)

/-- `x is None`. -/
def Obj.isNone : Obj A → Bool
  | .none => true
  | _ => false

/-! ### clib.cc -/

/-- The first loop of `MapImpl` (clib.cc:36-59): all arguments that are not scalars at
this depth are tuples of the same length. An argument is a pair of depth and object. -/
def checkLens (cur : Nat) : List (Nat × Obj A) → Option Nat → Except (Err E) (Option Nat)
  | [], m => .ok m
  | (d, o) :: rest, m =>
    if d ≤ cur then checkLens cur rest m
    else
      match o with
      | .tup xs =>
        match m with
        | none => checkLens cur rest (some xs.length)
        | some l => if xs.length ≠ l then .error .typeError else checkLens cur rest m
      | _ => .error .typeError

/-- `PyTuple_GET_ITEM(o, i)`, only used for an index that exists. -/
def getItem (o : Obj A) (i : Nat) : Obj A :=
  match o with
  | .tup xs => xs.getD i .none
  | _ => .none

/-- The arguments of the recursive call for index `i` (clib.cc:72-77, 84-88). -/
def descend (cur i : Nat) (args : List (Nat × Obj A)) : List (Nat × Obj A) :=
  args.map fun a => if a.1 ≤ cur then a else (a.1, getItem a.2 i)

/-- `MapImpl` (clib.cc:32-97). The first argument bounds the recursion depth. -/
def mapImpl (fn : List (Obj A) → M A E (Obj A)) (includeMissing : Bool) :
    Nat → Nat → List (Nat × Obj A) → M A E (Obj A)
  | fuel, cur, args => fun h =>
    match checkLens cur args none with
    | .error e => .error e
    | .ok none =>
      if !includeMissing && args.any (·.2.isNone) then .ok (.none, h)
      else fn (args.map (·.2)) h
    | .ok (some len) =>
      match fuel with
      | 0 => .error .stillRunning
      | fuel + 1 =>
        match seqM ((List.range len).map fun i =>
            mapImpl fn includeMissing fuel (cur + 1) (descend cur i args)) h with
        | .error e => .error e
        | .ok (rs, h') => .ok (.tup rs, h')

/-- The largest depth. -/
def maxDepth (args : List (Nat × Obj A)) : Nat := (args.map (·.1)).foldl max 0

/-- `map_structures` (clib.cc:99-190). -/
def mapStructures (fn : List (Obj A) → M A E (Obj A)) (includeMissing : Bool)
    (args : List (Nat × Obj A)) : M A E (Obj A) :=
  mapImpl fn includeMissing (maxDepth args) 0 args

/-! ### view.py -/

/-- `View` (lines 159-203). -/
structure View (A : Type) where
  obj : Obj A
  depth : Nat
  deriving Repr

def View.arg (v : View A) : Nat × Obj A := (v.depth, v.obj)

/-- Make a view of a computed object. -/
def mkView (depth : Nat) (c : M A E (Obj A)) : M A E (View A) := fun h =>
  match c h with
  | .error e => .error e
  | .ok (o, h') => .ok ({ obj := o, depth := depth }, h')

/-- A function of one argument, called with a list of arguments. -/
def unary (f : Obj A → M A E (Obj A)) : List (Obj A) → M A E (Obj A)
  | [x] => f x
  | _ => fun _ => .error .typeError

/-- A function of two arguments, called with a list of arguments. -/
def binary (f : Obj A → Obj A → M A E (Obj A)) : List (Obj A) → M A E (Obj A)
  | [x, y] => f x y
  | _ => fun _ => .error .typeError

/-- A computation that does not touch the heap. -/
def pureM {α : Type} (r : Except (Err E) α) : M A E α := fun h =>
  match r with
  | .error e => .error e
  | .ok x => .ok (x, h)

/-- `_map1` (lines 808-814). -/
def map1 (f : Obj A → M A E (Obj A)) (v : View A) (includeMissing : Bool) : M A E (View A) :=
  mkView v.depth (mapStructures (unary f) includeMissing [v.arg])

/-- `_map2` (lines 817-834). -/
def map2 (f : Obj A → Obj A → M A E (Obj A)) (v w : View A) (includeMissing : Bool) :
    M A E (View A) :=
  mkView (max v.depth w.depth) (mapStructures (binary f) includeMissing [v.arg, w.arg])

/-- `implode` (lines 361-373). -/
def implode (v : View A) (ndim : Int) : Except (Err E) (View A) :=
  if ndim < 0 then .ok { v with depth := 0 }
  else if ndim ≤ v.depth then .ok { v with depth := v.depth - ndim.toNat }
  else .error .valueError

/-- `() if x is None else tuple(x)` (line 291). -/
def toTuple (iterAtom : A → Option (List (Obj A))) (x : Obj A) : M A E (Obj A) := fun h =>
  match x with
  | .none => .ok (.tup [], h)
  | .tup xs => .ok (.tup xs, h)
  | .ref r =>
    match h[r]? with
    | some xs => .ok (.tup xs, h)
    | none => .error .typeError
  | .atom a =>
    match iterAtom a with
    | some xs => .ok (.tup xs, h)
    | none => .error .typeError
  | .present => .error .typeError

/-- The loop of `explode` (lines 292-295). -/
def explodeLoop (iterAtom : A → Option (List (Obj A))) : Nat → View A → M A E (View A)
  | 0, v, h => .ok (v, h)
  | n + 1, v, h =>
    match map1 (toTuple iterAtom) v true h with
    | .error e => .error e
    | .ok (r, h') => explodeLoop iterAtom n { r with depth := r.depth + 1 } h'

/-- `explode` (lines 281-296). -/
def explode (iterAtom : A → Option (List (Obj A))) (v : View A) (ndim : Int) : M A E (View A) :=
  fun h => if ndim < 0 then .error .valueError else explodeLoop iterAtom ndim.toNat v h

/-- `[]`: a new empty list. -/
def newList : M A E (Obj A) := fun h => .ok (.ref h.length, h ++ [[]])

/-- `x.append(y)`, which returns `None`. -/
def append (x y : Obj A) : M A E (Obj A) := fun h =>
  match x with
  | .ref r =>
    match h[r]? with
    | some xs => .ok (.none, h.set r (xs ++ [y]))
    | none => .error .typeError
  | _ => .error .typeError

/-- The clamping of `from_dim` in `flatten` (lines 405-407). -/
def clampFrom (depth : Nat) (fromDim : Int) : Nat :=
  let x := if fromDim < 0 then fromDim + depth else fromDim
  (max 0 (min x depth)).toNat

/-- The clamping of `to_dim` in `flatten` (lines 408-413). -/
def clampTo (depth : Nat) (fromDim : Nat) (toDim : Option Int) : Nat :=
  match toDim with
  | none => depth
  | some t =>
    let x := if t < 0 then t + depth else t
    (max (fromDim : Int) (min x depth)).toNat

/-- `flatten` (lines 403-427). -/
def flatten (iterAtom : A → Option (List (Obj A))) (v : View A) (fromDim : Int)
    (toDim : Option Int) : M A E (View A) := fun h =>
  let f := clampFrom v.depth fromDim
  let t := clampTo v.depth f toDim
  if f + 1 = t then .ok (v, h)
  else
    match implode v ((v.depth : Int) - f), implode v ((v.depth : Int) - t) with
    | .ok inner, .ok outer =>
      match map1 (fun _ => newList) inner true h with
      | .error e => .error e
      | .ok (res, h1) =>
        match map2 append res outer true h1 with
        | .error e => .error e
        | .ok (_, h2) =>
          match explode iterAtom res 1 h2 with
          | .error e => .error e
          | .ok (r, h3) => .ok ({ obj := r.obj, depth := v.depth - (t - f) + 1 }, h3)
    | .error e, _ => .error e
    | _, .error e => .error e

/-- `expand_to` (lines 429-453). (`self is other` with `ndim = 0` returns `self`; so does
the general case.) -/
def expandTo (v other : View A) (ndim : Int) : M A E (View A) := fun h =>
  if ndim < 0 then .error .valueError
  else
    match (if ndim = 0 then .ok v else implode v ndim : Except (Err E) (View A)) with
    | .error e => .error e
    | .ok res =>
      if res.depth ≤ other.depth then
        match map2 (fun x _ => pureM (.ok x)) res other true h with
        | .error e => .error e
        | .ok (r, h') => .ok ({ r with depth := r.depth + ndim.toNat }, h')
      else .error .valueError

/-- `max(args, key=lambda v: v.get_depth())`: the first of the deepest views. -/
def deepest : View A → List (View A) → View A
  | v, [] => v
  | v, w :: ws => deepest (if w.depth > v.depth then w else v) ws

/-- `align` (lines 786-805). -/
def align : List (View A) → M A E (List (View A))
  | [], h => .ok ([], h)
  | [v], h => .ok ([v], h)
  | v :: w :: rest, h =>
    let r := deepest v (w :: rest)
    seqM ((v :: w :: rest).map fun x => expandTo x r 0) h

/-- `map_` (lines 839-928), also `View.map` (line 455). Keyword arguments are passed to
the function like positional ones. `max` of no depths raises `ValueError`. -/
def map_ (fn : List (Obj A) → M A E (Obj A)) (args : List (View A)) (ndim : Int)
    (includeMissing : Option Bool) : M A E (View A) := fun h =>
  let im := includeMissing.getD (ndim != 0)
  if ndim ≠ 0 ∧ im = false then .error .valueError
  else if ndim < 0 then .error .valueError
  else
    match (if ndim ≠ 0 then align args h else .ok (args, h)) with
    | .error e => .error e
    | .ok (args', h1) =>
      if args' = [] then .error .valueError
      else
        let resDepth := maxDepth (args'.map View.arg)
        if ndim ≠ 0 then
          if ndim > resDepth then .error .valueError
          else
            let d := resDepth - ndim.toNat
            mkView d (mapStructures fn im (args'.map fun v => (d, v.obj))) h1
        else mkView resDepth (mapStructures fn im (args'.map View.arg)) h1

/-! ### select, inverse_select -/

/-- `_select_impl` (lines 100-110). -/
def selectImpl : List (Obj A) → List (Obj A) → Except (Err E) (List (Obj A))
  | [], [] => .ok []
  | a :: as, b :: bs =>
    match b with
    | .present =>
      match selectImpl as bs with
      | .error e => .error e
      | .ok r => .ok (a :: r)
    | .none => selectImpl as bs
    | _ => .error .valueError
  | _, _ => .error .valueError          -- zip(strict=True)

/-- `_select_constant_fltr_impl` (lines 113-123). -/
def selectConst (x fltr : Obj A) : M A E (Obj A) :=
  match fltr with
  | .present => pureM (.ok x)
  | .none => pureM (.ok (.tup []))
  | _ => pureM (.error .valueError)

/-- `_inverse_select_impl` (lines 126-154): the loop over the filter. -/
def inverseSelectImpl : List (Obj A) → List (Obj A) → Except (Err E) (List (Obj A))
  | xs, b :: bs =>
    match b with
    | .present =>
      match xs with
      | [] => .error .valueError
      | x :: xs' =>
        match inverseSelectImpl xs' bs with
        | .error e => .error e
        | .ok r => .ok (x :: r)
    | .none =>
      match inverseSelectImpl xs bs with
      | .error e => .error e
      | .ok r => .ok (.none :: r)
    | _ => .error .valueError
  | [], [] => .ok []
  | _ :: _, [] => .error .valueError

/-- A function of two tuples. -/
def onTuples (f : List (Obj A) → List (Obj A) → Except (Err E) (List (Obj A))) (x y : Obj A) :
    M A E (Obj A) :=
  match x, y with
  | .tup xs, .tup ys => pureM ((f xs ys).map .tup)
  | _, _ => pureM (.error .typeError)

/-- `select` (lines 561-587). -/
def select (v fltr : View A) (expandFilter : Bool) : M A E (View A) := fun h =>
  if fltr.depth > v.depth then .error .valueError
  else
    let dims := if expandFilter then v.depth else fltr.depth   -- select_dim + 1
    match dims with
    | 0 => .error .valueError
    | selectDim + 1 =>
      match implode v ((v.depth : Int) - selectDim) with
      | .error e => .error e
      | .ok data =>
        if fltr.depth > selectDim then
          match implode fltr 1 with
          | .error e => .error e
          | .ok fl =>
            match map2 (onTuples selectImpl) data fl false h with
            | .error e => .error e
            | .ok (r, h') => .ok ({ obj := r.obj, depth := v.depth }, h')
        else
          match map2 selectConst data fltr true h with
          | .error e => .error e
          | .ok (r, h') => .ok ({ obj := r.obj, depth := v.depth }, h')

/-- `inverse_select` (lines 589-602). -/
def inverseSelect (v fltr : View A) : M A E (View A) := fun h =>
  if fltr.depth ≠ v.depth then .error .valueError
  else if v.depth = 0 then .error .valueError
  else
    match implode v 1, implode fltr 1 with
    | .ok x, .ok fl =>
      match map2 (onTuples inverseSelectImpl) x fl false h with
      | .error e => .error e
      | .ok (r, h') => .ok ({ obj := r.obj, depth := v.depth }, h')
    | .error e, _ => .error e
    | _, .error e => .error e

/-! ### group_by, collapse -/

/-- `grouped.setdefault(key, []).append(x)` (line 68): an ordered dict from keys to
lists. -/
def addToGroup (keyEq : List (Obj A) → List (Obj A) → Bool) (key : List (Obj A)) (x : Obj A) :
    List (List (Obj A) × List (Obj A)) → List (List (Obj A) × List (Obj A))
  | [] => [(key, [x])]
  | g :: gs => if keyEq g.1 key then (g.1, g.2 ++ [x]) :: gs else g :: addToGroup keyEq key x gs

/-- `zip(x, *args, strict=True)` (line 62): the rows, `none` if the lengths differ. -/
def zipRows : List (Obj A) → List (List (Obj A)) → Option (List (Obj A × List (Obj A)))
  | [], args => if args.all (·.isEmpty) then some [] else none
  | x :: xs, args =>
    if args.all (fun a => !a.isEmpty) then
      (zipRows xs (args.map List.tail)).map fun r => (x, args.map fun a => a.headD .none) :: r
    else none

/-- The loop of `_group_by_impl` (lines 61-68). -/
def groupLoop (keyEq : List (Obj A) → List (Obj A) → Bool) :
    List (Obj A × List (Obj A)) → List (List (Obj A) × List (Obj A)) →
    List (List (Obj A) × List (Obj A))
  | [], grouped => grouped
  | (x, ks) :: rest, grouped =>
    let key := if ks.isEmpty then [x] else ks
    if key.any Obj.isNone then groupLoop keyEq rest grouped
    else groupLoop keyEq rest (addToGroup keyEq key x grouped)

/-- Insertion into a sorted list of groups, after equals. -/
def insertGroup (lt : List (Obj A) → List (Obj A) → Bool) (g : List (Obj A) × List (Obj A)) :
    List (List (Obj A) × List (Obj A)) → List (List (Obj A) × List (Obj A))
  | [] => [g]
  | k :: ks => if lt g.1 k.1 then g :: k :: ks else k :: insertGroup lt g ks

/-- `sorted(grouped.items())` (line 70). The keys are distinct, so that the values are
never compared. -/
def sortGroups (lt : List (Obj A) → List (Obj A) → Bool)
    (gs : List (List (Obj A) × List (Obj A))) : List (List (Obj A) × List (Obj A)) :=
  gs.foldl (fun acc g => insertGroup lt g acc) []

/-- `_group_by_impl` (lines 58-72). -/
def groupByImpl (keyEq lt : List (Obj A) → List (Obj A) → Bool) (sort : Bool)
    (x : List (Obj A)) (args : List (List (Obj A))) : Except (Err E) (List (Obj A)) :=
  match zipRows x args with
  | none => .error .valueError
  | some rows =>
    let grouped := groupLoop keyEq rows []
    .ok ((if sort then sortGroups lt grouped else grouped).map fun g => .tup g.2)

/-- The items of a tuple. -/
def Obj.items? : Obj A → Option (List (Obj A))
  | .tup xs => some xs
  | _ => Option.none

/-- `_group_by_impl` as a function of python objects. -/
def groupByFn (keyEq lt : List (Obj A) → List (Obj A) → Bool) (sort : Bool) :
    List (Obj A) → M A E (Obj A)
  | [] => pureM (.error .typeError)
  | x :: args =>
    match x.items?, args.mapM Obj.items? with
    | some xs, some as => pureM ((groupByImpl keyEq lt sort xs as).map .tup)
    | _, _ => pureM (.error .typeError)

/-- `group_by` (lines 534-550). -/
def groupBy (keyEq lt : List (Obj A) → List (Obj A) → Bool) (v : View A) (args : List (View A))
    (sort : Bool) : M A E (View A) := fun h =>
  if v.depth = 0 then .error .valueError
  else if args.any (fun a => a.depth != v.depth) then .error .valueError
  else
    let imploded := (v :: args).map fun a => { a with depth := a.depth - 1 }  -- implode()
    match map_ (groupByFn keyEq lt sort) imploded 0 none h with
    | .error e => .error e
    | .ok (r, h') => .ok ({ r with depth := r.depth + 2 }, h')

/-- `_collapse_impl` (lines 75-85). -/
def collapseImpl (eq : Obj A → Obj A → Bool) : List (Obj A) → Obj A → Obj A
  | [], res => res
  | x :: xs, res =>
    if x.isNone then collapseImpl eq xs res
    else if res.isNone then collapseImpl eq xs x
    else if !eq res x then .none
    else collapseImpl eq xs res

/-- `_collapse_impl` as a function of python objects. -/
def collapseFn (eq : Obj A → Obj A → Bool) : List (Obj A) → M A E (Obj A)
  | [.tup xs] => pureM (.ok (collapseImpl eq xs .none))
  | _ => pureM (.error .typeError)

/-- `collapse` (lines 552-559). -/
def collapse (iterAtom : A → Option (List (Obj A))) (eq : Obj A → Obj A → Bool) (v : View A)
    (ndim : Int) : M A E (View A) := fun h =>
  if ndim < 0 ∨ ndim > v.depth then .error .valueError
  else
    match flatten iterAtom v ((v.depth : Int) - ndim) none h with
    | .error e => .error e
    | .ok (r, h1) => map_ (collapseFn eq) [r] 1 none h1

/-! ### Operators -/

/-- `_presence_and_impl` (lines 88-97). -/
def presenceAndImpl (x y : Obj A) : M A E (Obj A) :=
  match y with
  | .present => pureM (.ok x)
  | _ => pureM (.error .valueError)

/-- `__and__` (line 627). -/
def andOp (v w : View A) : M A E (View A) := map2 presenceAndImpl v w false

/-- `y if x is None else x` (line 635). -/
def orImpl (x y : Obj A) : M A E (Obj A) := pureM (.ok (if x.isNone then y else x))

/-- `__or__` (lines 633-636). -/
def orOp (v w : View A) : M A E (View A) := map2 orImpl v w true

/-- `present if x == y else None`, and the same with the other comparisons. -/
def compareImpl (test : Obj A → Obj A → Bool) (x y : Obj A) : M A E (Obj A) :=
  pureM (.ok (if test x y then .present else .none))

/-- `__eq__` (lines 643-646) and the other comparisons (lines 648-671). -/
def compareOp (test : Obj A → Obj A → Bool) (v w : View A) : M A E (View A) :=
  map2 (compareImpl test) v w false

/-- `_get_item_impl` on tuples and python lists with an index (lines 42-46); `toIndex` is
the integer value of an atom. Negative indices count from the end. -/
def getItemImpl (toIndex : A → Option Int) (x i : Obj A) : M A E (Obj A) := fun h =>
  let look (xs : List (Obj A)) (k : Int) : Obj A :=
    let j := if k < 0 then k + xs.length else k
    if j < 0 then .none else xs.getD j.toNat .none
  match i with
  | .atom a =>
    match toIndex a with
    | none => .error .typeError
    | some k =>
      match x with
      | .tup xs => .ok (look xs k, h)
      | .ref r =>
        match h[r]? with
        | some xs => .ok (look xs k, h)
        | none => .error .typeError
      | _ => .error .typeError
  | _ => .error .typeError

/-- `take` (lines 357-359) of an index view: `self.implode()[index]`. -/
def take (toIndex : A → Option Int) (v index : View A) : M A E (View A) := fun h =>
  match implode v 1 with
  | .error e => .error e
  | .ok x => map2 (getItemImpl toIndex) x index false h

end Verif.View
