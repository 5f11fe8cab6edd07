import Verif.SliceManager.Model

/-
What a data slice manager is supposed to be, without processes, steps, bag managers or files: every
directory is a list of revisions, each showing some data and schema; an update appends a revision
computed from the last one, a branch starts a new list.
-/

namespace Verif.SliceManager

variable {I Sch Snn B SB U : Type}

/-- What one revision shows: the initial data, the schema, which data bags belong to which schema
node, and all data bags in the order in which they were added. -/
structure View (I Sch Snn B : Type) where
  initial : I
  schema : Sch
  map : Snn → Option (List Name)
  data : List (Name × B)

/-- The data bags to compose for some schema nodes: all that belong to one of them, in the order in
which they were added; an error if one of the nodes is not a node of this revision. -/
def View.load (v : View I Sch Snn B) (snns : List Snn) : Option (List B) :=
  if ∀ s ∈ snns, (v.map s).isSome then
    some ((v.data.filter fun e => snns.any fun s => ((v.map s).getD []).contains e.1).map Prod.snd)
  else none

/-- The first revision of a new directory. -/
def View.first [DecidableEq Snn] (api : Api I Sch Snn B SB U) (i : I) : View I Sch Snn B :=
  ⟨i, api.schemaOf i, fun s => if s ∈ api.nodes (api.schemaOf i) then some [] else none, []⟩

/-- The revision after an update, given the names of the new data bags: it only depends on what the
revision before shows.  `none` if the update is not valid. -/
def View.update (api : Api I Sch Snn B SB U) (v : View I Sch Snn B) (u : U) (names : List Name) :
    Option (View I Sch Snn B) :=
  (api.plan v.initial v.schema v.load u).map fun p =>
    { initial := v.initial
      schema := api.updSchema v.schema p.schema
      map := fun s =>
        match p.added s with
        | none => v.map s
        | some idxs => some ((v.map s).getD [] ++ idxs.filterMap fun i => names[i]?)
      data := v.data ++ names.zip p.data }

/-- A revision: where it comes from and what it shows. -/
structure Revision (I Sch Snn B U : Type) where
  info : Info U
  view : View I Sch Snn B

/-- The revisions of every directory. -/
abbrev Hist (I Sch Snn B U : Type) := Path → List (Revision I Sch Snn B U)

/-- How the revisions change. -/
def applyEvent [DecidableEq Snn] (api : Api I Sch Snn B SB U) (h : Hist I Sch Snn B U) :
    Event I U → Hist I Sch Snn B U
  | .created d i => fun d' => if d' = d then [⟨.creation, View.first api i⟩] else h d'
  | .updated _ d u names => fun d' =>
      if d' = d then
        h d' ++ (((h d').getLast?.bind fun r => r.view.update api u names).map fun v =>
          (⟨.update u, v⟩ : Revision I Sch Snn B U)).toList
      else h d'
  | .branched d parent i => fun d' =>
      if d' = d then
        ((h parent)[i]?.map fun r => (⟨.branch parent i, r.view⟩ : Revision I Sch Snn B U)).toList
      else h d'
  | .raised _ => h
  | .done _ => h

/-- The revisions after everything that has happened. -/
def hist [DecidableEq Snn] (api : Api I Sch Snn B SB U) (log : List (Event I U)) :
    Hist I Sch Snn B U :=
  log.foldl (applyEvent api) fun _ => []

/-- When an event may happen: a directory is created or branched into only if it holds no revision,
a branch shows a revision the parent has, an update is valid for the last revision of its directory
and gives its new data bags new names, one each. -/
def Legal (api : Api I Sch Snn B SB U) (h : Hist I Sch Snn B U) : Event I U → Prop
  | .created d _ => h d = []
  | .updated _ d u names => ∃ r p, (h d).getLast? = some r ∧
      api.plan r.view.initial r.view.schema r.view.load u = some p ∧
      names.length = p.data.length ∧ names.Nodup ∧ ∀ n ∈ names, n ∉ r.view.data.map Prod.fst
  | .branched d parent i => h d = [] ∧ i < (h parent).length
  | .raised _ => True
  | .done _ => True

/-- Every event was legal when it happened. -/
def LegalLog [DecidableEq Snn] (api : Api I Sch Snn B SB U) (log : List (Event I U)) : Prop :=
  ∀ pre e post, log = pre ++ e :: post → Legal api (hist api pre) e

/-- A manager shows a revision: the same initial data, the same schema, the same data for every set
of schema nodes. -/
def Shows (m : Mgr I Sch Snn B SB U) (v : View I Sch Snn B) : Prop :=
  m.initial = v.initial ∧ m.getSchema = v.schema ∧ ∀ snns, m.load snns = v.load snns

/-! ### Talking about executions -/

/-- The instance that acts. -/
def Act.who : Act I U → Nat
  | .create q _ _ => q
  | .openAt q _ _ _ => q
  | .update q _ => q
  | .branch q _ _ _ => q
  | .copy q _ => q
  | .setReadOnly q => q
  | .step q => q
  | .fail q => q

/-- How many steps of `q` there are among some actions. -/
def steps (q : Nat) : List (Act I U) → Nat
  | [] => 0
  | .step q' :: as => if q' = q then steps q as + 1 else steps q as
  | _ :: as => steps q as

/-- `q` does nothing but go on with what it is doing; the others do anything. -/
def OnlySteps (q : Nat) (as : List (Act I U)) : Prop := ∀ a ∈ as, a.who = q → a = .step q

/-- Events by which an update of `q` succeeds. -/
def Commits (q : Nat) : Event I U → Prop
  | .updated q' _ _ _ => q' = q
  | .done q' => q' = q
  | _ => False

/-- Which events are commits of updates of `q`. -/
def isUpdateOf (q : Nat) : Event I U → Bool
  | .updated q' _ _ _ => q' == q
  | _ => false

/-- A directory asked for, or one under the parent's `branches`. -/
def Target (out : Option Nat) (parent d : Path) : Prop :=
  match out with
  | some n => d = .user n
  | none => ∃ s, d = .branch parent s

end Verif.SliceManager
