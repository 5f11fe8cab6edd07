/-
Model of `DataSliceManager`
(/repo/py/koladata/ext/storage/data_slice_manager.py): the persistence directory with its initial
data, its three bag managers and its numbered metadata files, and the methods `create_new`,
`create_from_dir`, `update`, `branch`, `get_readonly_copy` and `set_read_only`, each split into the
steps between which another process may run or the process itself may die.

Every bag manager is represented by what C08 to C12 prove of it: a directory holds a number (the
latest `metadata_update_number`) and the list of all bags committed so far in the order they were
added; an instance remembers the number and the list it has seen last; adding bags commits all of
them at once, and only if the directory is still at the number of the instance; a selection of bags
is always composed in the order of addition (all dependencies are empty here).  The cache of bags
is not visible (C12).
-/

namespace Verif.SliceManager

/-- A bag name, data_slice_manager.py 1334-1335 and 1362-1363 (`str(uuid.uuid1())`).  Simplified: a
uuid is the instance that drew it and how many that instance had drawn before, which is what makes
it unique. -/
structure Name where
  owner : Nat
  seq : Nat
  deriving DecidableEq, Repr

/-- A persistence directory: one chosen by the user, or `parent/branches/<short form>`,
data_slice_manager.py 1495-1496 and 1560.  Simplified: users do not choose a directory inside
another manager's directory (the assumption is written down in lines 1513-1517). -/
inductive Path where
  | user (n : Nat)
  | branch (parent : Path) (short : Nat)
  deriving DecidableEq, Repr

/-- The three bag managers of a data slice manager, data_slice_manager.py 1342-1352. -/
inductive Kind where
  | data
  | schema
  | snn
  deriving DecidableEq, Repr

/-- The Koda DICT from schema node names to LISTs of data bag names, data_slice_manager.py
236-239. -/
abbrev SnnMap (Snn : Type) := Snn → Option (List Name)

/-- What an update bag does to one entry of the DICT: `kd.dict_update` with a new LIST or
`kd.list_append_update`, data_slice_manager.py 1001-1009. -/
inductive MapUpd where
  | set (names : List Name)
  | append (names : List Name)
  deriving DecidableEq, Repr

/-- What a bag of each bag manager contains: data, a schema update, or an update of the DICT of
data bag names. -/
abbrev Content (Snn B SB : Type) : Kind → Type
  | .data => B
  | .schema => SB
  | .snn => Snn → Option MapUpd

/-- What `update` computes before it writes anything, data_slice_manager.py 741-928: the new data
bags in the order in which they will be added, the schema bag, and for each affected schema node
the positions of its new data bags. -/
structure Plan (Snn B SB : Type) where
  data : List B
  schema : SB
  added : Snn → Option (List Nat)

/-- The parts of the library the manager calls: the schema of the initial data
(`initial_data_manager.get_schema()`), the schema node names of a schema
(`SchemaHelper.get_all_schema_node_names`), applying a schema bag (`schema.updated(bag)`), the
computation of an update (data_slice_manager.py 741-928: `none` when it raises) from the initial
data, the schema, the data bags the manager loads for given schema nodes, and the arguments of the
call, and the short form of a uuid (1375-1384). -/
structure Api (I Sch Snn B SB U : Type) where
  schemaOf : I → Sch
  nodes : Sch → List Snn
  updSchema : Sch → SB → Sch
  plan : I → Sch → (List Snn → Option (List B)) → U → Option (Plan Snn B SB)
  short : Name → Nat

/-- The state of a bag manager: its directory's, or what an instance has seen of it.
data_bag_manager.py 136-148. -/
structure BagDir (B : Type) where
  num : Nat
  bags : List (Name × B)

/-- `DataBagManager.get_minimal_bag`, data_bag_manager.py 297-321: the named bags in the order of
addition, an error if one of them is not known. -/
def BagDir.minimal {B : Type} (m : BagDir B) (ns : List Name) : Option (List (Name × B)) :=
  if ns.all (fun n => (m.bags.map Prod.fst).contains n) then
    some (m.bags.filter fun e => ns.contains e.1)
  else none

/-- `DataBagManager.add_bags` by an instance that has seen `m`, on a directory holding `disk`,
data_bag_manager.py 468-555 and 778-819: the metadata of the instance with the new bags appended is
committed under the next number, unless that number is taken. -/
def BagDir.add {B : Type} (m : BagDir B) (disk : Option (BagDir B)) (new : List (Name × B)) :
    Option (BagDir B) :=
  match disk with
  | none => none
  | some d => if d.num = m.num then some ⟨m.num + 1, m.bags ++ new⟩ else none

/-- `DataBagManager.create_branch`, data_bag_manager.py 379-438: number 0 and the named bags in the
order of the source. -/
def BagDir.branch {B : Type} (m : BagDir B) (ns : List Name) : Option (BagDir B) :=
  (m.minimal ns).map fun bs => ⟨0, bs⟩

/-- What a revision says about itself, data_slice_manager.py 268, 1034-1037 and 1219-1222.
Simplified: the arguments of the update stand for the path, attribute name and description taken
from them; timestamps are left out. -/
inductive Info (U : Type) where
  | creation
  | update (u : U)
  | branch (parent : Path) (index : Nat)
  deriving DecidableEq, Repr

/-- `RevisionMetadata`, data_slice_manager.py 256-269, 1026-1038, 1211-1223.  Simplified: the names
are not sorted (they are only used as sets). -/
structure Rev (U : Type) where
  info : Info U
  names : Kind → List Name

/-- `DataSliceManagerMetadata`, data_slice_manager.py 251-271.  Simplified: without the format
version and the id of the class of the initial data. -/
structure Meta (U : Type) where
  num : Nat
  revs : List (Rev U)

/-- All names of one kind in the revisions of a metadata, data_slice_manager.py 342-344, 1156-1165
and 1301-1303. -/
def namesOf {U : Type} (revs : List (Rev U)) (k : Kind) : List Name :=
  revs.flatMap fun r => r.names k

/-- A persistence directory: `initial_data`, the file of the initial DICT, the three bag manager
directories, the metadata files by number, and the names claimed under `branches`.  Simplified:
temporary metadata files are left out, no pattern matches them (data_slice_manager.py 1405-1408,
1450-1453). -/
structure Dir (I Snn B SB U : Type) where
  initial : Option I
  map : Option (SnnMap Snn)
  bags : (k : Kind) → Option (BagDir (Content Snn B SB k))
  metas : List (Nat × Meta U)
  claimed : List Nat

/-- A directory that does not exist yet or is empty. -/
def Dir.empty (I Snn B SB U : Type) : Dir I Snn B SB U :=
  ⟨none, none, fun _ => none, [], []⟩

/-- `not fs.glob(dir/*)`, data_slice_manager.py 209, 321 and 1138. -/
def Dir.isEmpty {I Snn B SB U : Type} (d : Dir I Snn B SB U) : Bool :=
  d.initial.isNone && d.map.isNone && (d.bags .data).isNone && (d.bags .schema).isNone &&
    (d.bags .snn).isNone && d.metas.isEmpty && d.claimed.isEmpty

/-- `fs.exists(metadata-<number>.pb)` and its content, data_slice_manager.py 1395-1398. -/
def Dir.metaAt {I Snn B SB U : Type} (d : Dir I Snn B SB U) (n : Nat) : Option (Meta U) :=
  (d.metas.find? fun e => e.1 == n).map Prod.snd

/-- `_get_latest_metadata_version`, data_slice_manager.py 1401-1413: the greatest number, an error
if there is none. -/
def Dir.latest {I Snn B SB U : Type} (d : Dir I Snn B SB U) : Option Nat :=
  (d.metas.map Prod.fst).max?

/-- `_read_metadata`, data_slice_manager.py 1459-1492. -/
def Dir.readMeta {I Snn B SB U : Type} (d : Dir I Snn B SB U) (at? : Option Int) :
    Option (Meta U) :=
  match d.latest with
  | none => none
  | some l =>
    match at? with
    | none => d.metaAt l
    | some i => if 0 ≤ i ∧ i ≤ l then d.metaAt i.toNat else none

/-- Replacing one of three dependent components. -/
def setKind {β : Kind → Type} (f : (k : Kind) → β k) (k : Kind) (x : β k) : (k : Kind) → β k :=
  fun k' => if h : k = k' then h ▸ x else f k'

/-- The three bag managers of an instance together. -/
def allBags {Snn B SB : Type} (db : BagDir B) (sb : BagDir SB)
    (nb : BagDir (Snn → Option MapUpd)) : (k : Kind) → BagDir (Content Snn B SB k)
  | .data => db
  | .schema => sb
  | .snn => nb

/-- The attributes of a `DataSliceManager`, data_slice_manager.py 419-432. -/
structure Mgr (I Sch Snn B SB U : Type) where
  dir : Path
  readOnly : Bool
  initial : I
  map : SnnMap Snn
  bags : (k : Kind) → BagDir (Content Snn B SB k)
  schema : Sch
  meta_ : Meta U

/-- The initial DICT: an empty LIST for every schema node name of the initial schema,
data_slice_manager.py 236-239. -/
def initMap {Sch Snn : Type} [DecidableEq Snn] (nodes : Sch → List Snn) (s : Sch) : SnnMap Snn :=
  fun snn => if snn ∈ nodes s then some [] else none

/-- `dict.updated(bag)` with one update bag, data_slice_manager.py 1304-1308. -/
def applyMap {Snn : Type} (m : SnnMap Snn) (bag : Snn → Option MapUpd) : SnnMap Snn :=
  fun snn =>
    match bag snn with
    | none => m snn
    | some (.set ns) => some ns
    | some (.append ns) => some ((m snn).getD [] ++ ns)

/-- `initial_data_manager.get_schema().updated(schema_bag_manager.get_minimal_bag(names))`,
data_slice_manager.py 345-349 and 1200-1204. -/
def schemaFrom {I Sch Snn B SB U : Type} (api : Api I Sch Snn B SB U) (i : I)
    (m : BagDir (Content Snn B SB .schema)) (ns : List Name) : Option Sch :=
  (m.minimal ns).map fun bs => (bs.map Prod.snd).foldl api.updSchema (api.schemaOf i)

/-- `_get_schema_node_name_to_data_bag_names`, data_slice_manager.py 1299-1308. -/
def Mgr.fullMap {I Sch Snn B SB U : Type} (m : Mgr I Sch Snn B SB U) : Option (SnnMap Snn) :=
  ((m.bags .snn).minimal (namesOf m.meta_.revs .snn)).map fun bs =>
    (bs.map Prod.snd).foldl applyMap m.map

/-- The names of the data bags of the given schema nodes, `none` if one of them is not a key of the
DICT, data_slice_manager.py 524-531. -/
def bagNames {Snn : Type} (f : SnnMap Snn) : List Snn → Option (List Name)
  | [] => some []
  | s :: ss =>
    match f s, bagNames f ss with
    | some ns, some rest => some (ns ++ rest)
    | _, _ => none

/-- The data bags that `internal_get_data_bag_for_schema_node_names` composes,
data_slice_manager.py 517-532.  The bag of the initial data and the schema bag it adds are
functions of the initial data, of `get_schema()` and of the same schema nodes. -/
def Mgr.load {I Sch Snn B SB U : Type} (m : Mgr I Sch Snn B SB U) (snns : List Snn) :
    Option (List B) :=
  match m.fullMap with
  | none => none
  | some f =>
    match bagNames f snns with
    | none => none
    | some ns => ((m.bags .data).minimal ns).map fun bs => bs.map Prod.snd

/-- `get_schema`, data_slice_manager.py 437-439. -/
def Mgr.getSchema {I Sch Snn B SB U : Type} (m : Mgr I Sch Snn B SB U) : Sch := m.schema

/-- `get_revision_history`, data_slice_manager.py 548-604. -/
def Mgr.history {I Sch Snn B SB U : Type} (m : Mgr I Sch Snn B SB U) : List (Info U) :=
  m.meta_.revs.map Rev.info

/-! ### Operations in progress -/

/-- Where `create_new` is, data_slice_manager.py 224-273. -/
inductive CreatePc where
  | initial
  | bag (k : Kind)
  | map
  | check
  | rename
  | finish
  deriving DecidableEq, Repr

/-- Where `update` is, data_slice_manager.py 983-1051. -/
inductive UpdatePc where
  | bag (k : Kind)
  | check
  | rename
  | assign
  deriving DecidableEq, Repr

/-- Where `branch` is once it has its output directory, data_slice_manager.py 1143-1226. -/
inductive BranchPc where
  | initial
  | map
  | bag (k : Kind)
  | check
  | rename
  deriving DecidableEq, Repr

/-- The operation an instance is in the middle of, with its local variables. -/
inductive Job (I Sch Snn B SB U : Type) where
  | idle
  /-- `create_new` -/
  | create (d : Path) (i : I) (pc : CreatePc)
  /-- `create_from_dir` after reading the metadata, 333-338 next -/
  | open1 (d : Path) (ro : Bool) (m : Meta U)
  /-- ... after opening the data bag manager, 339-349 next -/
  | open2 (d : Path) (ro : Bool) (m : Meta U) (i : I) (db : BagDir B)
  /-- ... after opening the schema bag manager, 350-364 next -/
  | open3 (d : Path) (ro : Bool) (m : Meta U) (i : I) (db : BagDir B) (sb : BagDir SB) (s : Sch)
  /-- `get_readonly_copy`, 1263 next -/
  | copy1 (src : Mgr I Sch Snn B SB U)
  /-- ... 1266 next -/
  | copy2 (src : Mgr I Sch Snn B SB U) (db : BagDir B)
  /-- ... 1269 next -/
  | copy3 (src : Mgr I Sch Snn B SB U) (db : BagDir B) (sb : BagDir SB)
  /-- `update`: the arguments, the plan and the first uuid -/
  | update (u : U) (p : Plan Snn B SB) (base : Nat) (pc : UpdatePc)
  /-- `_get_dir_for_new_branch`: about to draw a uuid, 1531 -/
  | draw (src : Mgr I Sch Snn B SB U) (i : Nat)
  /-- ... about to rename the unique file to the sentinel file, 1551 -/
  | claim (src : Mgr I Sch Snn B SB U) (i : Nat) (s : Nat)
  /-- `branch` with its output directory -/
  | branch (src : Mgr I Sch Snn B SB U) (i : Nat) (d : Path) (pc : BranchPc)

/-- A manager instance: its attributes once it is constructed, what it is doing, and how many
uuids it has drawn. -/
structure Slot (I Sch Snn B SB U : Type) where
  mgr : Option (Mgr I Sch Snn B SB U)
  job : Job I Sch Snn B SB U
  seq : Nat

/-- What happens that callers or later readers can see: a revision being committed, an operation
raising, an operation returning. -/
inductive Event (I U : Type) where
  | created (d : Path) (i : I)
  | updated (q : Nat) (d : Path) (u : U) (names : List Name)
  | branched (d : Path) (parent : Path) (index : Nat)
  | raised (q : Nat)
  | done (q : Nat)
  deriving DecidableEq, Repr

/-- All directories, all instances, and what has happened. -/
structure World (I Sch Snn B SB U : Type) where
  dirs : Path → Dir I Snn B SB U
  slots : Nat → Slot I Sch Snn B SB U
  log : List (Event I U)

/-- Nothing has happened yet. -/
def World.init (I Sch Snn B SB U : Type) : World I Sch Snn B SB U :=
  ⟨fun _ => Dir.empty I Snn B SB U, fun _ => ⟨none, .idle, 0⟩, []⟩

variable {I Sch Snn B SB U : Type}

/-- Writing to one directory. -/
def World.setDir (w : World I Sch Snn B SB U) (d : Path)
    (f : Dir I Snn B SB U → Dir I Snn B SB U) : World I Sch Snn B SB U :=
  { w with dirs := fun d' => if d' = d then f (w.dirs d') else w.dirs d' }

/-- Changing one instance. -/
def World.setSlot (w : World I Sch Snn B SB U) (q : Nat)
    (f : Slot I Sch Snn B SB U → Slot I Sch Snn B SB U) : World I Sch Snn B SB U :=
  { w with slots := fun q' => if q' = q then f (w.slots q') else w.slots q' }

/-- Something becomes visible. -/
def World.emit (w : World I Sch Snn B SB U) (e : Event I U) : World I Sch Snn B SB U :=
  { w with log := w.log ++ [e] }

/-- The next thing an instance does. -/
def World.goto (w : World I Sch Snn B SB U) (q : Nat) (j : Job I Sch Snn B SB U) :
    World I Sch Snn B SB U :=
  w.setSlot q fun s => { s with job := j }

/-- An operation raises: its local variables are gone, the attributes stay as they are. -/
def World.raise (w : World I Sch Snn B SB U) (q : Nat) : World I Sch Snn B SB U :=
  (w.goto q .idle).emit (.raised q)

/-- A factory method returns a new instance. -/
def World.return (w : World I Sch Snn B SB U) (q : Nat) (m : Mgr I Sch Snn B SB U) :
    World I Sch Snn B SB U :=
  (w.setSlot q fun s => { s with mgr := some m, job := .idle }).emit (.done q)

/-- The new bags of an update for each bag manager, data_slice_manager.py 899-918, 946-982,
984-995, 998-1020.  The uuids are drawn in this order: data bags, schema bag, DICT update bag
(simplified: all at the start). -/
def newBags (q : Nat) (f : SnnMap Snn) (p : Plan Snn B SB) (base : Nat) :
    (k : Kind) → List (Name × Content Snn B SB k)
  | .data => p.data.zipIdx.map fun e => (⟨q, base + e.2⟩, e.1)
  | .schema => [(⟨q, base + p.data.length⟩, p.schema)]
  | .snn => [(⟨q, base + p.data.length + 1⟩, fun snn =>
      match p.added snn with
      | none => none
      | some idxs =>
        let ns := idxs.filterMap fun i =>
          if i < p.data.length then some (⟨q, base + i⟩ : Name) else none
        match f snn with
        | none => some (.set ns)
        | some _ => some (.append ns))]

/-- The names an update adds to the metadata, data_slice_manager.py 1029-1033. -/
def newNames (q : Nat) (p : Plan Snn B SB) (base : Nat) : Kind → List Name
  | .data => (List.range p.data.length).map fun i => ⟨q, base + i⟩
  | .schema => [⟨q, base + p.data.length⟩]
  | .snn => [⟨q, base + p.data.length + 1⟩]

/-- The metadata an update commits, data_slice_manager.py 1022-1039. -/
def newMeta (q : Nat) (m : Meta U) (u : U) (p : Plan Snn B SB) (base : Nat) : Meta U :=
  ⟨m.num + 1, m.revs ++ [⟨.update u, newNames q p base⟩]⟩

/-- The metadata of a branch, data_slice_manager.py 1206-1225. -/
def branchMeta (src : Mgr I Sch Snn B SB U) (i : Nat) : Meta U :=
  ⟨0, [⟨.branch src.dir i, fun k => namesOf (src.meta_.revs.take (i + 1)) k⟩]⟩

/-- The bag managers of a new directory, data_slice_manager.py 227-232 and 245-250. -/
def freshBags (Snn B SB : Type) (k : Kind) : BagDir (Content Snn B SB k) := ⟨0, []⟩

/-- The metadata of a new directory, data_slice_manager.py 251-271. -/
def createMeta (U : Type) : Meta U := ⟨0, [⟨.creation, fun _ => []⟩]⟩

/-- `fs.rename(temp, metadata-<number>.pb, overwrite=False)`, data_slice_manager.py 1456. -/
def Dir.commit (d : Dir I Snn B SB U) (m : Meta U) : Option (Dir I Snn B SB U) :=
  match d.metaAt m.num with
  | some _ => none
  | none => some { d with metas := d.metas ++ [(m.num, m)] }

/-- The order in which `create_new` writes after a bag manager, data_slice_manager.py 227-273. -/
def afterCreateBag : Kind → CreatePc
  | .data => .bag .schema
  | .schema => .map
  | .snn => .check

/-- One step of `create_new`, data_slice_manager.py 224-286.  `DataBagManager.create_new` raises if
its directory is not empty; `serialize` raises if its directory is not empty
(bare_root_initial_data_manager.py 98-112; simplified: its check and its write are one step). -/
def stepCreate [DecidableEq Snn] (api : Api I Sch Snn B SB U) (w : World I Sch Snn B SB U) (q : Nat)
    (d : Path) (i : I) : CreatePc → World I Sch Snn B SB U
  | .initial =>
    if (w.dirs d).initial.isSome then w.raise q
    else (w.setDir d fun x => { x with initial := some i }).goto q (.create d i (.bag .data))
  | .bag k =>
    if ((w.dirs d).bags k).isSome then w.raise q
    else
      (w.setDir d fun x => { x with bags := setKind x.bags k (some (freshBags Snn B SB k)) }).goto q
        (.create d i (afterCreateBag k))
  | .map =>
    (w.setDir d fun x => { x with map := some (initMap api.nodes (api.schemaOf i)) }).goto q
      (.create d i (.bag .snn))
  | .check =>
    if ((w.dirs d).metaAt 0).isSome then w.raise q else w.goto q (.create d i .rename)
  | .rename =>
    match (w.dirs d).commit (createMeta U) with
    | none => w.raise q
    | some x => ((w.setDir d fun _ => x).emit (.created d i)).goto q (.create d i .finish)
  | .finish =>
    w.return q ⟨d, false, i, initMap api.nodes (api.schemaOf i), freshBags Snn B SB,
      api.schemaOf i, createMeta U⟩

/-- The order in which an update writes: data bags, schema bag, DICT update bag, metadata,
data_slice_manager.py 983-1020. -/
def afterBag : Kind → UpdatePc
  | .data => .bag .schema
  | .schema => .bag .snn
  | .snn => .check

/-- One step of `update` by the instance `m`, data_slice_manager.py 983-1051. -/
def stepUpdate (api : Api I Sch Snn B SB U) (w : World I Sch Snn B SB U) (q : Nat)
    (m : Mgr I Sch Snn B SB U) (u : U) (p : Plan Snn B SB) (base : Nat) :
    UpdatePc → World I Sch Snn B SB U
  | .bag k =>
    match m.fullMap with
    | none => w.raise q
    | some f =>
      match (m.bags k).add ((w.dirs m.dir).bags k) (newBags q f p base k) with
      | none => w.raise q
      | some bd =>
        (w.setDir m.dir fun x => { x with bags := setKind x.bags k (some bd) }).setSlot q fun s =>
          { s with
            mgr := some { m with bags := setKind m.bags k bd }
            job := .update u p base (afterBag k) }
  | .check =>
    if ((w.dirs m.dir).metaAt (newMeta q m.meta_ u p base).num).isSome then w.raise q
    else w.goto q (.update u p base .rename)
  | .rename =>
    match (w.dirs m.dir).commit (newMeta q m.meta_ u p base) with
    | none => w.raise q
    | some x =>
      ((w.setDir m.dir fun _ => x).emit (.updated q m.dir u (newNames q p base .data))).goto q
        (.update u p base .assign)
  | .assign =>
    w.return q { m with
      meta_ := newMeta q m.meta_ u p base, schema := api.updSchema m.schema p.schema }

/-- The order in which `branch` writes after a bag manager, data_slice_manager.py 1167-1226. -/
def afterBranchBag : Kind → BranchPc
  | .data => .bag .schema
  | .schema => .bag .snn
  | .snn => .check

/-- One step of `branch` into the directory `d`, data_slice_manager.py 1143-1240. -/
def stepBranch (api : Api I Sch Snn B SB U) (w : World I Sch Snn B SB U) (q : Nat)
    (src : Mgr I Sch Snn B SB U) (i : Nat) (d : Path) : BranchPc → World I Sch Snn B SB U
  | .initial =>
    if (w.dirs d).initial.isSome then w.raise q
    else (w.setDir d fun x => { x with initial := some src.initial }).goto q (.branch src i d .map)
  | .map =>
    (w.setDir d fun x => { x with map := some src.map }).goto q (.branch src i d (.bag .data))
  | .bag k =>
    match (src.bags k).branch (namesOf (src.meta_.revs.take (i + 1)) k) with
    | none => w.raise q
    | some bd =>
      if ((w.dirs d).bags k).isSome then w.raise q
      else
        (w.setDir d fun x => { x with bags := setKind x.bags k (some bd) }).goto q
          (.branch src i d (afterBranchBag k))
  | .check =>
    if ((w.dirs d).metaAt 0).isSome then w.raise q else w.goto q (.branch src i d .rename)
  | .rename =>
    let revs := src.meta_.revs.take (i + 1)
    match (src.bags .data).branch (namesOf revs .data), (src.bags .schema).branch (namesOf revs .schema),
      (src.bags .snn).branch (namesOf revs .snn) with
    | some db, some sb, some nb =>
      match schemaFrom api src.initial sb (namesOf revs .schema),
        (w.dirs d).commit (branchMeta src i) with
      | some s, some x =>
        ((w.setDir d fun _ => x).emit (.branched d src.dir i)).return q
          ⟨d, false, src.initial, src.map,
            allBags db sb nb, s, branchMeta src i⟩
      | _, _ => w.raise q
    | _, _, _ => w.raise q

/-- One step of whatever the instance is doing. -/
def stepJob [DecidableEq Snn] (api : Api I Sch Snn B SB U) (w : World I Sch Snn B SB U) (q : Nat) :
    World I Sch Snn B SB U :=
  match (w.slots q).job with
  | .idle => w
  | .create d i pc => stepCreate api w q d i pc
  | .open1 d ro m =>
    match (w.dirs d).initial, (w.dirs d).bags .data with
    | some i, some db => w.goto q (.open2 d ro m i db)
    | _, _ => w.raise q
  | .open2 d ro m i db =>
    match (w.dirs d).bags .schema with
    | some sb =>
      match schemaFrom api i sb (namesOf m.revs .schema) with
      | some s => w.goto q (.open3 d ro m i db sb s)
      | none => w.raise q
    | none => w.raise q
  | .open3 d ro m i db sb s =>
    match (w.dirs d).map, (w.dirs d).bags .snn with
    | some f, some nb =>
      w.return q ⟨d, ro, i, f, allBags db sb nb,
        s, m⟩
    | _, _ => w.raise q
  | .copy1 src =>
    match (w.dirs src.dir).bags .data with
    | some db => w.goto q (.copy2 src db)
    | none => w.raise q
  | .copy2 src db =>
    match (w.dirs src.dir).bags .schema with
    | some sb => w.goto q (.copy3 src db sb)
    | none => w.raise q
  | .copy3 src db sb =>
    match (w.dirs src.dir).bags .snn with
    | some nb =>
      w.return q { src with
        readOnly := true,
        bags := allBags db sb nb }
    | none => w.raise q
  | .update u p base pc =>
    match (w.slots q).mgr with
    | none => w
    | some m => stepUpdate api w q m u p base pc
  | .draw src i =>
    let s := api.short ⟨q, (w.slots q).seq⟩
    let w' := w.setSlot q fun x => { x with seq := x.seq + 1 }
    if (w.dirs src.dir).claimed.contains s then w' else w'.goto q (.claim src i s)
  | .claim src i s =>
    if (w.dirs src.dir).claimed.contains s then w.goto q (.draw src i)
    else
      (w.setDir src.dir fun x => { x with claimed := x.claimed ++ [s] }).goto q
        (.branch src i (.branch src.dir s) .initial)
  | .branch src i d pc => stepBranch api w q src i d pc

/-- What the environment may do: call a method (a factory method or a method that makes a new
instance is called on a new instance `q`), let an instance do its next step, or interrupt it with
an exception (a full disk, a lost connection, a KeyboardInterrupt).  A process that dies simply
does nothing any more. -/
inductive Act (I U : Type) where
  | create (q : Nat) (d : Nat) (i : I)
  | openAt (q : Nat) (d : Path) (at? : Option Int) (ro : Bool)
  | update (q : Nat) (u : U)
  | branch (q : Nat) (src : Nat) (i : Int) (out : Option Nat)
  | copy (q : Nat) (src : Nat)
  | setReadOnly (q : Nat)
  | step (q : Nat)
  | fail (q : Nat)
  deriving DecidableEq, Repr

/-- An instance that has not been used. -/
def Slot.isNew (s : Slot I Sch Snn B SB U) : Bool :=
  match s.mgr, s.job with
  | none, .idle => true
  | _, _ => false

/-- An instance that is constructed and not in the middle of an operation. -/
def Slot.ready (s : Slot I Sch Snn B SB U) : Option (Mgr I Sch Snn B SB U) :=
  match s.job with
  | .idle => s.mgr
  | _ => none

/-- `branch`'s check and normalisation of the index, data_slice_manager.py 1106-1125. -/
def branchIndex (len : Nat) (i : Int) : Option Nat :=
  if -(len : Int) ≤ i ∧ i < len then
    some (if i < 0 then ((len : Int) + i).toNat else i.toNat)
  else none

/-- One action of the environment: the part of each method up to its first effect on the file
system, or one step. -/
def act [DecidableEq Snn] (api : Api I Sch Snn B SB U) (w : World I Sch Snn B SB U) :
    Act I U → World I Sch Snn B SB U
  | .create q d i =>
    if (w.slots q).isNew then
      if (w.dirs (.user d)).isEmpty then w.goto q (.create (.user d) i .initial) else w.raise q
    else w
  | .openAt q d at? ro =>
    if (w.slots q).isNew then
      match (w.dirs d).readMeta at? with
      | some m => w.goto q (.open1 d ro m)
      | none => w.raise q
    else w
  | .update q u =>
    match (w.slots q).ready with
    | none => w
    | some m =>
      if m.readOnly then w.raise q
      else
        match api.plan m.initial m.schema m.load u with
        | none => w.raise q
        | some p =>
          w.setSlot q fun s =>
            { s with job := .update u p s.seq (.bag .data), seq := s.seq + p.data.length + 2 }
  | .branch q src i out =>
    if (w.slots q).isNew then
      match (w.slots src).ready with
      | none => w
      | some m =>
        match branchIndex m.meta_.revs.length i with
        | none => w.raise q
        | some j =>
          match out with
          | none => w.goto q (.draw m j)
          | some d =>
            if (w.dirs (.user d)).isEmpty then w.goto q (.branch m j (.user d) .initial)
            else w.raise q
    else w
  | .copy q src =>
    if (w.slots q).isNew then
      match (w.slots src).ready with
      | none => w
      | some m => w.goto q (.copy1 m)
    else w
  | .setReadOnly q =>
    match (w.slots q).ready with
    | none => w
    | some _ => w.setSlot q fun s => { s with mgr := s.mgr.map fun m => { m with readOnly := true } }
  | .step q => stepJob api w q
  | .fail q =>
    match (w.slots q).job with
    | .idle => w
    | _ => w.raise q

/-- Any number of actions. -/
def run [DecidableEq Snn] (api : Api I Sch Snn B SB U) (w : World I Sch Snn B SB U)
    (as : List (Act I U)) : World I Sch Snn B SB U :=
  as.foldl (act api) w

end Verif.SliceManager
