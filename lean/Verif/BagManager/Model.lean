import Verif.Common.PyDict

/-!
Model of `DataBagManager`
(`/repo/py/koladata/ext/storage/data_bag_manager.py`).

The file system is a finite map from (directory, file name) to contents. Every
step below is one file system operation; a crash or a power failure is a process
that takes no further step, so all crash points are covered by considering all
finite schedules. Several manager instances (of one or of many processes) are
the numbered processes of the schedule; `create_from_dir` re-opens a directory.

Simplifications.
* File names are structured; `Verif/BagManager/FileNamesTheorems.lean` relates them to
  the strings of the code.
* `_get_uuid()` (`uuid.uuid1`) returns a value that was never returned before: a
  global counter.
* Directories need not be created; `fs.make_dirs` has no other effect.
* The global bag cache is a map from (bag name, path) to bags; entries may disappear
  at any time (`evict`). `Verif/Lru` models when they do.
* A failing write leaves a partial file; the writes that are still running when
  `add_bags` fails are not continued.
* Serialization of bags and protos is the identity; a file that is being written
  has the content `partialFile`.
-/
namespace Verif.BagManager

/-- Names of the files in a persistence directory: `bag-{uuid}-{i}.kd` (line 743),
`metadata-{n}.pb` (line 800), `metadata-{n}-{uuid}.pb` (lines 812-815). -/
inductive Name where
  | bagFile (uuid i : Nat)
  | metaFile (n : Nat)
  | metaTemp (n uuid : Nat)
  deriving Repr, DecidableEq

/-- `DataBagMetadata` (data_bag_manager_metadata.proto). -/
structure BagMeta (D N X : Type) where
  name : N
  file : Name
  dir : Option D
  deps : List N
  custom : Option X

/-- `DataBagManagerMetadata`, without the constant `version`. -/
structure Metadata (D N X : Type) where
  num : Nat
  bags : List (BagMeta D N X)

/-- File contents. -/
inductive File (D N X B : Type) where
  | partialFile
  | bag (b : B)
  | md (m : Metadata D N X)

/-- The file system. -/
abbrev Fs (D N X B : Type) := PyDict (D × Name) (File D N X B)

/-- `BagToAdd` (lines 40-47). -/
structure ToAdd (N X B : Type) where
  name : N
  bag : B
  deps : List N
  custom : Option X

/-- Errors: `ValueError` and `KeyError`. -/
inductive Err where
  | valueError
  | keyError
  deriving Repr, DecidableEq

variable {D N X B : Type} [DecidableEq D] [DecidableEq N]

/-- `get_available_bag_names` (lines 217-224), in the order of adding. -/
def names (m : Metadata D N X) : List N := m.bags.map (·.name)

/-- The validation loop of `add_bags` (lines 281-293). -/
def validate (available : List N) : List (ToAdd N X B) → Except Err Unit
  | [] => .ok ()
  | a :: rest =>
    if a.name ∈ available then .error .valueError
    else if a.deps.all (· ∈ available) then validate (available ++ [a.name]) rest
    else .error .valueError

/-- The new metadata computed by `_add_bags` (lines 491-502); the `i`-th bag is
stored in `bag-{uuid}-{i}.kd` (lines 740-743). -/
def addedMeta (m : Metadata D N X) (uuid : Nat) (adds : List (ToAdd N X B)) : Metadata D N X :=
  { num := m.num + 1,
    bags := m.bags ++ adds.mapIdx fun i a =>
      { name := a.name, file := .bagFile uuid i, dir := none, deps := a.deps, custom := a.custom } }

/-- `_get_bag_filepath` (lines 751-758). -/
def bagPath (d : D) (b : BagMeta D N X) : D × Name := (b.dir.getD d, b.file)

/-! ### Dependency closure -/

/-- How `_get_reflexive_and_transitive_closure_image` ends, if it does within the
given number of iterations. -/
inductive Loop (N : Type) where
  | done (result : List N)
  | keyError
  | stillRunning

/-- The loop of `_get_reflexive_and_transitive_closure_image` (lines 633-641). Sets
are lists without duplicates; `set.pop()` removes an arbitrary element, chosen by
`pick`. `rel x = none` is a missing dict key. -/
def closureLoop (rel : N → Option (List N)) (pick : Nat → Nat) :
    Nat → List N → List N → Loop N
  | _, [], result => .done result
  | 0, _ :: _, _ => .stillRunning
  | n + 1, x :: xs, result =>
    let i := pick n % (x :: xs).length
    let current := (x :: xs).getD i x
    let rest := (x :: xs).eraseIdx i
    if current ∈ result then closureLoop rel pick n rest result
    else
      match rel current with
      | none => .keyError
      | some ys =>
        closureLoop rel pick n (rest ++ (ys.eraseDups.filter fun y => y ∉ rest))
          (result ++ [current])

/-- `_get_dependency_relation` (lines 615-617). -/
def depRel (m : Metadata D N X) (x : N) : Option (List N) :=
  (m.bags.find? fun b => b.name = x).map (·.deps)

/-- `_get_reverse_dependency_relation` (lines 619-625): a `defaultdict(set)`. -/
def revRel (m : Metadata D N X) (x : N) : Option (List N) :=
  some ((m.bags.filter fun b => x ∈ b.deps).map (·.name))

/-- The closures are computed with this bound on the number of iterations; it is
never reached (`depClosure_spec` in `Verif/BagManager/Closure.lean`). -/
def closureFuel (m : Metadata D N X) : Nat := (m.bags.length + 1) * (m.bags.length + 1)

/-- `_get_dependency_closure` (lines 577-613). `bagNames` is a set (no
duplicates). -/
def depClosure (m : Metadata D N X) (bagNames : List N) (withAllDependents : Bool)
    (pick : Nat → Nat) : Except Err (List N) :=
  let start := bagNames.eraseDups
  if start.all (· ∈ names m) then
    let consider : Except Err (List N) :=
      if withAllDependents then
        match closureLoop (revRel m) pick (closureFuel m) start [] with
        | .done r => .ok (start ++ r.filter fun y => y ∉ start)
        | _ => .error .keyError
      else .ok start
    match consider with
    | .error e => .error e
    | .ok c =>
      match closureLoop (depRel m) pick (closureFuel m) c [] with
      | .done r => .ok r
      | _ => .error .keyError
  else .error .valueError

/-- Insertion of an element into a list sorted by `key`, after its equals (python's
`sorted` is stable). -/
def insertBy (key : N → Nat) (x : N) : List N → List N
  | [] => [x]
  | y :: ys => if key x < key y then x :: y :: ys else y :: insertBy key x ys

/-- `sorted(xs, key=key)`. -/
def sortBy (key : N → Nat) (xs : List N) : List N :=
  xs.foldl (fun acc x => insertBy key x acc) []

/-- `canonical_topological_sorting` (lines 707-738); `KeyError` for unknown names. -/
def topoSort (m : Metadata D N X) (bagNames : List N) : Except Err (List N) :=
  if bagNames.all (· ∈ names m) then .ok (sortBy (fun x => (names m).idxOf x) bagNames)
  else .error .keyError

/-- The metadata that `create_branch` writes (lines 421-436). -/
def branchMeta (d : D) (m : Metadata D N X) (keep : List N) : Metadata D N X :=
  { num := 0,
    bags := (m.bags.filter fun b => b.name ∈ keep).map fun b =>
      { b with dir := some (b.dir.getD d) } }

/-! ### Reading -/

/-- `fs.glob(os.path.join(d, '*'))` is non-empty (lines 128, 179, 416). -/
def dirNonEmpty (fs : Fs D N X B) (d : D) : Bool := fs.any fun f => f.1.1 = d

/-- The update numbers of the files matching `metadata-[0-9]...[0-9].pb` in `d`
(lines 826-829). -/
def metaNums (fs : Fs D N X B) (d : D) : List Nat :=
  fs.filterMap fun f =>
    match f.1.2 with
    | .metaFile n => if f.1.1 = d then some n else none
    | _ => none

/-- `_read_latest_metadata` (lines 822-832): the largest committed file, parsed.
`max` of nothing, and a file that does not parse, raise. -/
def readLatest (fs : Fs D N X B) (d : D) : Option (Metadata D N X) :=
  match (metaNums fs d).max? with
  | none => none
  | some n =>
    match fs.get? (d, .metaFile n) with
    | some (.md m) => some m
    | _ => none

/-- `create_from_dir` (lines 172-186): the metadata of the new manager, `none` if it
raises. -/
def createFromDir (fs : Fs D N X B) (d : D) : Option (Metadata D N X) :=
  if dirNonEmpty fs d then readLatest fs d else none

/-- `_read_bag_from_file` (lines 760-764). -/
def readBag (fs : Fs D N X B) (path : D × Name) : Option B :=
  match fs.get? path with
  | some (.bag b) => some b
  | _ => none

/-- The bag cache (`_get_bag_cache_key`, lines 835-842). -/
abbrev Cache (D N B : Type) := PyDict (N × (D × Name)) B

/-- `bag_cache.set`: an entry that is present is kept and returned. -/
def cacheSet (c : Cache D N B) (k : N × (D × Name)) (b : B) : B × Cache D N B :=
  match c.get? k with
  | some b' => (b', c)
  | none => (b, c.set k b)

/-- `_load_exactly_these_bags` (lines 643-705), one bag after the other: from the cache
if possible, else from its file, which then goes to the cache. The bag files of a
manager do not change, so it does not matter when they are read. -/
def loadExactly (fs : Fs D N X B) (d : D) (m : Metadata D N X) :
    List N → Cache D N B → Except Err (List (N × B) × Cache D N B)
  | [], c => .ok ([], c)
  | x :: xs, c =>
    match m.bags.find? fun b => b.name = x with
    | none => .error .keyError
    | some bm =>
      let k := (x, bagPath d bm)
      match c.get? k with
      | some b =>
        match loadExactly fs d m xs c with
        | .error e => .error e
        | .ok (r, c') => .ok ((x, b) :: r, c')
      | none =>
        match readBag fs (bagPath d bm) with
        | none => .error .valueError
        | some b =>
          let (b', c1) := cacheSet c k b
          match loadExactly fs d m xs c1 with
          | .error e => .error e
          | .ok (r, c') => .ok ((x, b') :: r, c')

/-- The arguments of `kd.bags.updated` in `_make_single_bag` (lines 556-575). -/
def singleBagArgs (m : Metadata D N X) (loaded : List (N × B)) : Except Err (List B) :=
  match topoSort m (loaded.map (·.1)) with
  | .error e => .error e
  | .ok order => .ok (order.filterMap fun x => (loaded.find? fun p => p.1 = x).map (·.2))

/-- The `bags_to_add` of `extract_bags` (lines 366-376). -/
def extractAdds (m : Metadata D N X) (loaded : List (N × B)) :
    Except Err (List (ToAdd N X B)) :=
  match topoSort m (loaded.map (·.1)) with
  | .error e => .error e
  | .ok order => .ok (order.filterMap fun x =>
      match (loaded.find? fun p => p.1 = x), depRel m x with
      | some p, some deps => some { name := x, bag := p.2, deps := deps, custom := none }
      | _, _ => none)

/-! ### Processes and file system steps -/

/-- Why metadata is being persisted. -/
inductive Why (D N X B : Type) where
  | create
  | add (adds : List (ToAdd N X B))
  | branch (src : D) (ver : Nat) (bagNames : List N) (withAllDependents : Bool)

/-- Where `_persist_metadata` (lines 778-819) is. -/
inductive Stage where
  | check                        -- before `fs.exists(final_filepath)` (line 801)
  | tempStart (uuid : Nat)       -- before opening the temporary file (line 816)
  | tempPartial (uuid : Nat)     -- temporary file opened, content being written
  | tempDone (uuid : Nat)        -- before `fs.rename` (line 818)
  | renameChecked (uuid : Nat)   -- inside a non atomic rename, after its existence check
  | committed                    -- after the rename
  deriving Repr, DecidableEq

/-- What a process is doing. -/
inductive Job (D N X B : Type) where
  | idle
  | writing (adds : List (ToAdd N X B)) (uuid : Nat) (todo inflight : List (Nat × B))
  | persist (d : D) (new : Metadata D N X) (why : Why D N X B) (stage : Stage)

/-- A process: its manager (directory and `_metadata`), if any, and its job. -/
structure Proc (D N X B : Type) where
  mgr : Option (D × Metadata D N X)
  job : Job D N X B

/-- The file system, the cache, the next uuid and the processes. -/
structure Sys (D N X B : Type) where
  fs : Fs D N X B
  cache : Cache D N B
  nextUuid : Nat
  procs : Nat → Proc D N X B

def init : Sys D N X B :=
  { fs := [], cache := [], nextUuid := 0, procs := fun _ => { mgr := none, job := .idle } }

/-- Atomic actions. -/
inductive Act (D N X B : Type) where
  | startCreate (p : Nat) (d : D)
  | openDir (p : Nat) (d : D)
  | startAdd (p : Nat) (adds : List (ToAdd N X B))
  | startBranch (p : Nat) (bagNames : List N) (withAllDependents : Bool) (out : D)
      (pick : Nat → Nat)
  | startWrite (p : Nat) (j : Nat)
  | finishWrite (p : Nat) (j : Nat)
  | advance (p : Nat)
  | fail (p : Nat)
  | load (p : Nat) (bagNames : List N) (withAllDependents : Bool) (pick : Nat → Nat)
  | evict (p : Nat) (k : N × (D × Name))

def Act.pid : Act D N X B → Nat
  | .startCreate p _ | .openDir p _ | .startAdd p _ | .startBranch p _ _ _ _
  | .startWrite p _ | .finishWrite p _ | .advance p | .fail p
  | .load p _ _ _ | .evict p _ => p

/-- What is observed when an action is taken: a method returns, raises, or the
rename that makes new metadata visible happens. -/
inductive Event (D N X B : Type) where
  | returned (p : Nat)
  | raised (p : Nat)
  | loaded (p : Nat) (bags : List (N × B)) (updatedArgs : List B)
  | committed (p : Nat) (d : D) (num : Nat) (why : Why D N X B)

def setProc (s : Sys D N X B) (p : Nat) (q : Proc D N X B) : Sys D N X B :=
  { s with procs := fun p' => if p' = p then q else s.procs p' }

/-- The effect of a successful rename of the temporary metadata file. -/
def commitRename (s : Sys D N X B) (p : Nat) (d : D) (new : Metadata D N X) (why : Why D N X B)
    (uuid : Nat) : Sys D N X B × Option (Event D N X B) :=
  let q := s.procs p
  match s.fs.get? (d, .metaTemp new.num uuid) with
  | none => (setProc s p { q with job := .idle }, some (.raised p))
  | some f =>
    let fs' := (s.fs.erase (d, .metaTemp new.num uuid)).set (d, .metaFile new.num) f
    (setProc { s with fs := fs' } p { q with job := .persist d new why .committed },
     some (.committed p d new.num why))

/-- One atomic action. `atomicRename` says whether `fs.rename(..., overwrite=False)`
is one step; in the default file system it is an existence check followed by
`os.rename`, which overwrites (`/repo/py/koladata/file_io/fs_implementation.py:45-57`).
An action that is not enabled does nothing. -/
def step (atomicRename : Bool) (s : Sys D N X B) : Act D N X B →
    Sys D N X B × Option (Event D N X B)
  | .startCreate p d =>      -- create_new, lines 126-141
    let q := s.procs p
    match q.job with
    | .idle =>
      if dirNonEmpty s.fs d then (s, some (.raised p))
      else (setProc s p { q with job := .persist d { num := 0, bags := [] } .create .check }, none)
    | _ => (s, none)
  | .openDir p d =>          -- create_from_dir, lines 172-186
    let q := s.procs p
    match q.job with
    | .idle =>
      match createFromDir s.fs d with
      | some m => (setProc s p { q with mgr := some (d, m) }, some (.returned p))
      | none => (s, some (.raised p))
    | _ => (s, none)
  | .startAdd p adds =>      -- add_bags, lines 281-295, and _add_bags, lines 478-488
    let q := s.procs p
    match q.job, q.mgr with
    | .idle, some (_, m) =>
      match validate (names m) adds with
      | .error _ => (s, some (.raised p))
      | .ok _ =>
        (setProc { s with nextUuid := s.nextUuid + 1 } p
          { q with job := .writing adds s.nextUuid (adds.mapIdx fun i a => (i, a.bag)) [] }, none)
    | _, _ => (s, none)
  | .startWrite p j =>       -- a worker thread opens the next bag file
    let q := s.procs p
    match q.job, q.mgr with
    | .writing adds uuid todo inflight, some (d, _) =>
      match todo[j]? with
      | none => (s, none)
      | some (i, b) =>
        (setProc { s with fs := s.fs.set (d, .bagFile uuid i) .partialFile } p
          { q with job := .writing adds uuid (todo.eraseIdx j) (inflight ++ [(i, b)]) }, none)
    | _, _ => (s, none)
  | .finishWrite p j =>      -- ... and has written and closed it
    let q := s.procs p
    match q.job, q.mgr with
    | .writing adds uuid todo inflight, some (d, _) =>
      match inflight[j]? with
      | none => (s, none)
      | some (i, b) =>
        (setProc { s with fs := s.fs.set (d, .bagFile uuid i) (.bag b) } p
          { q with job := .writing adds uuid todo (inflight.eraseIdx j) }, none)
    | _, _ => (s, none)
  | .startBranch p bagNames wd out pick =>   -- create_branch, lines 409-438
    let q := s.procs p
    match q.job, q.mgr with
    | .idle, some (d, m) =>
      match depClosure m bagNames wd pick with
      | .error _ => (s, some (.raised p))
      | .ok keep =>
        if dirNonEmpty s.fs out then (s, some (.raised p))
        else
          let new := branchMeta d m keep
          let why := Why.branch d m.num bagNames wd
          (setProc s p { q with job := .persist out new why .check }, none)
    | _, _ => (s, none)
  | .fail p =>               -- any exception (I/O error, KeyboardInterrupt, ...)
    let q := s.procs p
    match q.job with
    | .idle => (s, none)
    | _ => (setProc s p { q with job := .idle }, some (.raised p))
  | .evict _ k => ({ s with cache := s.cache.erase k }, none)
  | .load p bagNames wd pick =>   -- load_bags, lines 463-466; get_minimal_bag, lines 318-321
    let q := s.procs p
    match q.job, q.mgr with
    | .idle, some (d, m) =>
      match depClosure m bagNames wd pick with
      | .error _ => (s, some (.raised p))
      | .ok keep =>
        match loadExactly s.fs d m keep s.cache with
        | .error _ => (s, some (.raised p))
        | .ok (r, cache') =>
          match singleBagArgs m r with
          | .error _ => (s, some (.raised p))
          | .ok args => ({ s with cache := cache' }, some (.loaded p r args))
    | _, _ => (s, none)
  | .advance p =>
    let q := s.procs p
    match q.job with
    | .writing adds uuid [] [] =>            -- all bag files written, lines 489-502
      match q.mgr with
      | some (d, m) =>
        (setProc s p { q with job := .persist d (addedMeta m uuid adds) (.add adds) .check }, none)
      | none => (s, none)
    | .persist d new why .check =>           -- lines 801-811
      if (s.fs.get? (d, .metaFile new.num)).isSome then
        (setProc s p { q with job := .idle }, some (.raised p))
      else
        (setProc { s with nextUuid := s.nextUuid + 1 } p
          { q with job := .persist d new why (.tempStart s.nextUuid) }, none)
    | .persist d new why (.tempStart uuid) =>    -- line 816
      (setProc { s with fs := s.fs.set (d, .metaTemp new.num uuid) .partialFile } p
        { q with job := .persist d new why (.tempPartial uuid) }, none)
    | .persist d new why (.tempPartial uuid) =>  -- line 817
      (setProc { s with fs := s.fs.set (d, .metaTemp new.num uuid) (.md new) } p
        { q with job := .persist d new why (.tempDone uuid) }, none)
    | .persist d new why (.tempDone uuid) =>     -- line 818
      if (s.fs.get? (d, .metaFile new.num)).isSome then
        (setProc s p { q with job := .idle }, some (.raised p))
      else if atomicRename then commitRename s p d new why uuid
      else (setProc s p { q with job := .persist d new why (.renameChecked uuid) }, none)
    | .persist d new why (.renameChecked uuid) => commitRename s p d new why uuid
    | .persist d new why .committed =>           -- lines 142-148, 518, 438
      match why with
      | .create => (setProc s p { mgr := some (d, new), job := .idle }, some (.returned p))
      | .add adds =>
        -- The bags go to the cache (lines 529-554); `evict` covers an interrupted loop.
        let cache' := (adds.zip (new.bags.drop (new.bags.length - adds.length))).foldl
          (fun c ab => (cacheSet c (ab.1.name, bagPath d ab.2) ab.1.bag).2) s.cache
        (setProc { s with cache := cache' } p { mgr := some (d, new), job := .idle },
         some (.returned p))
      | .branch .. => (setProc s p { q with job := .idle }, some (.returned p))
    | _ => (s, none)

/-- A schedule from the empty file system; the observed events in order. -/
def run (atomicRename : Bool) : List (Act D N X B) → Sys D N X B × List (Event D N X B)
  | acts => acts.foldl (fun (s, ev) a =>
      let (s', e) := step atomicRename s a
      (s', ev ++ e.toList)) (init, [])

end Verif.BagManager
