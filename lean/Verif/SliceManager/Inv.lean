import Verif.SliceManager.Views

/-
The invariant of a world of data slice managers, and why an action of one instance that touches one
directory preserves what is known about everything else.
-/

namespace Verif.SliceManager

variable {I Sch Snn B SB U : Type}

/-- A metadata is the one of some committed revision. -/
def MetaAt (R : List (Rev U)) (m : Meta U) : Prop :=
  m.num < R.length ∧ m.revs = R.take (m.num + 1)

/-- A manager is at a committed revision of its directory. -/
structure MgrOk (api : Api I Sch Snn B SB U) (d : Dir I Snn B SB U) (R : List (Rev U))
    (m : Mgr I Sch Snn B SB U) : Prop where
  metaAt : MetaAt R m.meta_
  sees : ∀ k, Sees (d.bags k) (namesOf m.meta_.revs k) (m.bags k)
  initial : d.initial = some m.initial
  map : d.map = some m.map
  schema : m.schema =
    ((pick (namesOf m.meta_.revs .schema) (m.bags .schema).bags).map Prod.snd).foldl
      api.updSchema (api.schemaOf m.initial)

/-- A directory holds the revisions `R`, which show `H`. -/
structure DirOk (api : Api I Sch Snn B SB U) (d : Dir I Snn B SB U) (R : List (Rev U))
    (H : List (Revision I Sch Snn B U)) : Prop where
  metas : d.metas = (List.range R.length).map fun j => (j, (⟨j, R.take (j + 1)⟩ : Meta U))
  infos : H.map Revision.info = R.map Rev.info
  there : R ≠ [] → ∃ i f, d.initial = some i ∧ d.map = some f ∧ (∀ k, (d.bags k).isSome) ∧
    ∀ (j : Nat) h, H[j]? = some h →
      h.view = viewFrom api i f fun k => pick (namesOf (R.take (j + 1)) k) (bagsIn (d.bags k))
  named : ∀ k, ∀ n ∈ namesOf R k, n ∈ namesIn (bagsIn (d.bags k))
  closed : ∀ h ∈ H, Closed h.view
  nodup : ∀ k, (namesIn (bagsIn (d.bags k))).Nodup
  blank : d.initial = none → d.map = none ∧ (∀ k, d.bags k = none) ∧ d.claimed = []

/-- A directory only moves forward. -/
structure DirExt (d d' : Dir I Snn B SB U) (R R' : List (Rev U)) : Prop where
  revs : R <+: R'
  initial : ∀ i, d.initial = some i → d'.initial = some i
  map : R ≠ [] → d'.map = d.map
  bags : ∀ k, Later (d.bags k) (d'.bags k)

theorem DirExt.refl (d : Dir I Snn B SB U) (R : List (Rev U)) : DirExt d d R R :=
  ⟨List.prefix_refl _, fun _ h => h, fun _ => rfl, fun _ => Later.refl _⟩

theorem MetaAt.ext {R R' : List (Rev U)} {m : Meta U} (h : MetaAt R m) (hp : R <+: R') :
    MetaAt R' m := by
  obtain ⟨r, rfl⟩ := hp
  refine ⟨by have := h.1; simp; omega, ?_⟩
  rw [h.2, List.take_append_of_le_length (by have := h.1; omega)]

theorem MetaAt.ne_nil {R : List (Rev U)} {m : Meta U} (h : MetaAt R m) : R ≠ [] := by
  rintro rfl
  exact absurd h.1 (by simp)

theorem MgrOk.ext {api : Api I Sch Snn B SB U} {d d' : Dir I Snn B SB U} {R R' : List (Rev U)}
    {m : Mgr I Sch Snn B SB U} (h : MgrOk api d R m) (he : DirExt d d' R R') :
    MgrOk api d' R' m :=
  { metaAt := h.metaAt.ext he.revs
    sees := fun k => (h.sees k).later (he.bags k)
    initial := he.initial _ h.initial
    map := by rw [he.map h.metaAt.ne_nil]; exact h.map
    schema := h.schema }

/-- Which bag managers an update has already added its bags to. -/
def past : UpdatePc → Kind → Bool
  | .bag .data, _ => false
  | .bag .schema, k => k == .data
  | .bag .snn, k => k != .snn
  | _, _ => true

/-- No bag has a name that the instance drew from `base` on. -/
def Old {α : Type} (q base : Nat) (bags : List (Name × α)) : Prop :=
  ∀ n ∈ namesIn bags, n.owner = q → n.seq < base

/-- An update in progress has the plan for the revision of its manager, and the bags it has added so
far come after all bags of that revision. -/
structure UpdOk (api : Api I Sch Snn B SB U) (H : Hist I Sch Snn B U) (q : Nat)
    (m : Mgr I Sch Snn B SB U) (seq : Nat) (u : U) (p : Plan Snn B SB) (base : Nat)
    (pc : UpdatePc) (h : Revision I Sch Snn B U) : Prop where
  rw : m.readOnly = false
  seq : base + p.data.length + 2 ≤ seq
  at_ : (H m.dir)[m.meta_.num]? = some h
  plan : api.plan h.view.initial h.view.schema h.view.load u = some p
  did : ∀ k, past pc k = true → ∃ pre, (m.bags k).bags = pre ++ newBags q h.view.map p base k ∧
    (∀ n ∈ namesOf m.meta_.revs k, n ∈ namesIn pre) ∧ Old q base pre
  todo : ∀ k, past pc k = false → Old q base (m.bags k).bags

/-- The manager after an update. -/
def updatedMgr (api : Api I Sch Snn B SB U) (q : Nat) (m : Mgr I Sch Snn B SB U) (u : U)
    (p : Plan Snn B SB) (base : Nat) : Mgr I Sch Snn B SB U :=
  { m with meta_ := newMeta q m.meta_ u p base, schema := api.updSchema m.schema p.schema }

/-- The manager that `create_new` returns. -/
def createdMgr [DecidableEq Snn] (api : Api I Sch Snn B SB U) (d : Path) (i : I) :
    Mgr I Sch Snn B SB U :=
  ⟨d, false, i, initMap api.nodes (api.schemaOf i), freshBags Snn B SB, api.schemaOf i,
    createMeta U⟩

/-- What is known about an operation in progress. -/
def JobOk [DecidableEq Snn] (api : Api I Sch Snn B SB U) (dirs : Path → Dir I Snn B SB U)
    (R : Path → List (Rev U)) (H : Hist I Sch Snn B U) (q : Nat) (s : Slot I Sch Snn B SB U) :
    Prop :=
  match s.job with
  | .idle => True
  | .create d i pc => (∃ n, d = .user n) ∧
      (pc = .finish → MgrOk api (dirs d) (R d) (createdMgr api d i))
  | .open1 d _ m => MetaAt (R d) m
  | .open2 d _ m i db => MetaAt (R d) m ∧ (dirs d).initial = some i ∧
      Sees ((dirs d).bags .data) (namesOf m.revs .data) db
  | .open3 d _ m i db sb s => MetaAt (R d) m ∧ (dirs d).initial = some i ∧
      Sees ((dirs d).bags .data) (namesOf m.revs .data) db ∧
      Sees ((dirs d).bags .schema) (namesOf m.revs .schema) sb ∧
      s = ((pick (namesOf m.revs .schema) sb.bags).map Prod.snd).foldl api.updSchema
        (api.schemaOf i)
  | .copy1 src => MgrOk api (dirs src.dir) (R src.dir) src
  | .copy2 src db => MgrOk api (dirs src.dir) (R src.dir) src ∧
      Sees ((dirs src.dir).bags .data) (namesOf src.meta_.revs .data) db
  | .copy3 src db sb => MgrOk api (dirs src.dir) (R src.dir) src ∧
      Sees ((dirs src.dir).bags .data) (namesOf src.meta_.revs .data) db ∧
      Sees ((dirs src.dir).bags .schema) (namesOf src.meta_.revs .schema) sb
  | .update u p base pc => ∃ m h, s.mgr = some m ∧ UpdOk api H q m s.seq u p base pc h ∧
      (pc = .assign → MgrOk api (dirs m.dir) (R m.dir) (updatedMgr api q m u p base))
  | .draw src i => MgrOk api (dirs src.dir) (R src.dir) src ∧ i < src.meta_.revs.length
  | .claim src i _ => MgrOk api (dirs src.dir) (R src.dir) src ∧ i < src.meta_.revs.length
  | .branch src i _ _ => MgrOk api (dirs src.dir) (R src.dir) src ∧ i < src.meta_.revs.length

/-- What a directory being created contains so far. -/
structure Building (I Snn B SB : Type) where
  dir : Path
  initial : I
  map : Option (SnnMap Snn)
  bags : (k : Kind) → Option (BagDir (Content Snn B SB k))

/-- The contents of the three bag manager directories, up to the given stage. -/
def upTo {β : Kind → Type} (f : (k : Kind) → β k) (stage : Nat) : (k : Kind) → Option (β k)
  | .data => if 1 ≤ stage then some (f .data) else none
  | .schema => if 2 ≤ stage then some (f .schema) else none
  | .snn => if 3 ≤ stage then some (f .snn) else none

/-- The bags of a branch. -/
def branchBags (src : Mgr I Sch Snn B SB U) (i : Nat) (k : Kind) : BagDir (Content Snn B SB k) :=
  ⟨0, pick (namesOf (src.meta_.revs.take (i + 1)) k) (src.bags k).bags⟩

/-- The directory an operation is in the middle of filling, with what it has put there. -/
def building [DecidableEq Snn] (api : Api I Sch Snn B SB U) :
    Job I Sch Snn B SB U → Option (Building I Snn B SB)
  | .create _ _ .initial => none
  | .create d i (.bag .data) => some ⟨d, i, none, upTo (freshBags Snn B SB) 0⟩
  | .create d i (.bag .schema) => some ⟨d, i, none, upTo (freshBags Snn B SB) 1⟩
  | .create d i .map => some ⟨d, i, none, upTo (freshBags Snn B SB) 2⟩
  | .create d i (.bag .snn) =>
      some ⟨d, i, some (initMap api.nodes (api.schemaOf i)), upTo (freshBags Snn B SB) 2⟩
  | .create d i .check =>
      some ⟨d, i, some (initMap api.nodes (api.schemaOf i)), upTo (freshBags Snn B SB) 3⟩
  | .create d i .rename =>
      some ⟨d, i, some (initMap api.nodes (api.schemaOf i)), upTo (freshBags Snn B SB) 3⟩
  | .create _ _ .finish => none
  | .branch _ _ _ .initial => none
  | .branch src i d .map => some ⟨d, src.initial, none, upTo (branchBags src i) 0⟩
  | .branch src i d (.bag .data) =>
      some ⟨d, src.initial, some src.map, upTo (branchBags src i) 0⟩
  | .branch src i d (.bag .schema) =>
      some ⟨d, src.initial, some src.map, upTo (branchBags src i) 1⟩
  | .branch src i d (.bag .snn) =>
      some ⟨d, src.initial, some src.map, upTo (branchBags src i) 2⟩
  | .branch src i d .check => some ⟨d, src.initial, some src.map, upTo (branchBags src i) 3⟩
  | .branch src i d .rename => some ⟨d, src.initial, some src.map, upTo (branchBags src i) 3⟩
  | _ => none

/-- The directory contains exactly that, and no revision. -/
def BuildOk (d : Dir I Snn B SB U) (R : List (Rev U)) (b : Building I Snn B SB) : Prop :=
  R = [] ∧ d.initial = some b.initial ∧ d.map = b.map ∧ ∀ k, d.bags k = b.bags k

/-- The directory under `branches` an operation has claimed. -/
def autoTarget : Job I Sch Snn B SB U → Option (Path × Nat)
  | .branch _ _ (.branch p s) _ => some (p, s)
  | _ => none

/-- The names an update has drawn are only where it has put them, and not part of a revision. -/
def Pending (w : World I Sch Snn B SB U) (R : Path → List (Rev U)) (q base : Nat) (pc : UpdatePc)
    (dir : Path) : Prop :=
  (∀ d k n, n ∈ namesIn (bagsIn ((w.dirs d).bags k)) → n.owner = q → base ≤ n.seq →
    d = dir ∧ past pc k = true) ∧
  ∀ d k n, n ∈ namesOf (R d) k → n.owner = q → n.seq < base

/-- The invariant; `R` are the revisions committed in every directory. -/
structure Inv [DecidableEq Snn] (api : Api I Sch Snn B SB U) (w : World I Sch Snn B SB U)
    (R : Path → List (Rev U)) : Prop where
  dirs : ∀ d, DirOk api (w.dirs d) (R d) (hist api w.log d)
  fresh : ∀ d k n, n ∈ namesIn (bagsIn ((w.dirs d).bags k)) → n.seq < (w.slots n.owner).seq
  mgrs : ∀ q m, (w.slots q).mgr = some m → MgrOk api (w.dirs m.dir) (R m.dir) m
  jobs : ∀ q, JobOk api w.dirs R (hist api w.log) q (w.slots q)
  build : ∀ q b, building api (w.slots q).job = some b → BuildOk (w.dirs b.dir) (R b.dir) b
  uniq : ∀ q q' b b', building api (w.slots q).job = some b →
    building api (w.slots q').job = some b' → b.dir = b'.dir → q = q'
  pend : ∀ q u p base pc m, (w.slots q).job = .update u p base pc → (w.slots q).mgr = some m →
    pc ≠ .assign → Pending w R q base pc m.dir
  autoEmpty : ∀ p s, s ∉ (w.dirs p).claimed → (w.dirs (.branch p s)).initial = none
  autoIn : ∀ q p s, autoTarget (w.slots q).job = some (p, s) → s ∈ (w.dirs p).claimed
  autoUniq : ∀ q q' p s, autoTarget (w.slots q).job = some (p, s) →
    autoTarget (w.slots q').job = some (p, s) → q = q'
  autoInit : ∀ q src i p s, (w.slots q).job = .branch src i (.branch p s) .initial →
    (w.dirs (.branch p s)).initial = none
  legal : LegalLog api w.log

/-- An action of `q` that touches at most the directory `d0`. -/
structure Move [DecidableEq Snn] (api : Api I Sch Snn B SB U) (w w' : World I Sch Snn B SB U)
    (R R' : Path → List (Rev U)) (q : Nat) (d0 : Path) : Prop where
  slots : ∀ q', q' ≠ q → w'.slots q' = w.slots q'
  seq : (w.slots q).seq ≤ (w'.slots q).seq
  dirs : ∀ d, d ≠ d0 → w'.dirs d = w.dirs d
  revs : ∀ d, d ≠ d0 → R' d = R d
  ext : DirExt (w.dirs d0) (w'.dirs d0) (R d0) (R' d0)
  histO : ∀ d, d ≠ d0 → hist api w'.log d = hist api w.log d
  histD : hist api w.log d0 <+: hist api w'.log d0
  ok : DirOk api (w'.dirs d0) (R' d0) (hist api w'.log d0)
  legal : LegalLog api w'.log
  fresh : ∀ k n, n ∈ namesIn (bagsIn ((w'.dirs d0).bags k)) → n.seq < (w'.slots n.owner).seq
  names : ∀ k n, n ∈ namesIn (bagsIn ((w'.dirs d0).bags k)) →
    n ∈ namesIn (bagsIn ((w.dirs d0).bags k)) ∨ n.owner = q ∨ ∃ d, n ∈ namesOf (R d) k
  rnames : ∀ k n, n ∈ namesOf (R' d0) k → n.owner = q ∨ ∃ d, n ∈ namesOf (R d) k
  build : ∀ q', q' ≠ q → ∀ b, building api (w.slots q').job = some b → b.dir = d0 →
    BuildOk (w'.dirs d0) (R' d0) b
  claimed : ∀ s ∈ (w.dirs d0).claimed, s ∈ (w'.dirs d0).claimed
  autoE : ∀ p s, d0 = .branch p s → s ∉ (w'.dirs p).claimed → (w'.dirs d0).initial = none
  autoI : ∀ q', q' ≠ q → ∀ src i p s, (w.slots q').job = .branch src i (.branch p s) .initial →
    .branch p s = d0 → (w'.dirs d0).initial = none

/-- What has to be shown about the instance that acted. -/
structure SlotOk [DecidableEq Snn] (api : Api I Sch Snn B SB U) (w w' : World I Sch Snn B SB U)
    (R' : Path → List (Rev U)) (q : Nat) : Prop where
  mgr : ∀ m, (w'.slots q).mgr = some m → MgrOk api (w'.dirs m.dir) (R' m.dir) m
  job : JobOk api w'.dirs R' (hist api w'.log) q (w'.slots q)
  build : ∀ b, building api (w'.slots q).job = some b → BuildOk (w'.dirs b.dir) (R' b.dir) b ∧
    ∀ q', q' ≠ q → ∀ b', building api (w.slots q').job = some b' → b'.dir ≠ b.dir
  pend : ∀ u p base pc m, (w'.slots q).job = .update u p base pc → (w'.slots q).mgr = some m →
    pc ≠ .assign → Pending w' R' q base pc m.dir
  auto : ∀ p s, autoTarget (w'.slots q).job = some (p, s) → s ∈ (w'.dirs p).claimed ∧
    ∀ q', q' ≠ q → autoTarget (w.slots q').job ≠ some (p, s)
  autoInit : ∀ src i p s, (w'.slots q).job = .branch src i (.branch p s) .initial →
    (w'.dirs (.branch p s)).initial = none

section
variable [DecidableEq Snn] {api : Api I Sch Snn B SB U} {w w' : World I Sch Snn B SB U}
  {R R' : Path → List (Rev U)} {q : Nat} {d0 : Path}

theorem Move.extAll (h : Move api w w' R R' q d0) (d : Path) :
    DirExt (w.dirs d) (w'.dirs d) (R d) (R' d) := by
  by_cases hd : d = d0
  · rw [hd]; exact h.ext
  · rw [h.dirs d hd, h.revs d hd]; exact DirExt.refl _ _

theorem Move.histAll (h : Move api w w' R R' q d0) (d : Path) :
    hist api w.log d <+: hist api w'.log d := by
  by_cases hd : d = d0
  · rw [hd]; exact h.histD
  · rw [h.histO d hd]; exact List.prefix_refl _

theorem prefix_getElem? {α : Type} {a b : List α} (h : a <+: b) {i : Nat} {x : α}
    (hx : a[i]? = some x) : b[i]? = some x := by
  obtain ⟨r, rfl⟩ := h
  have hi : i < a.length := (List.getElem?_eq_some_iff.1 hx).1
  rw [List.getElem?_append_left hi]
  exact hx

/-- What is known about another instance's operation stays true. -/
theorem JobOk.move (h : Move api w w' R R' q d0) {q' : Nat} {s : Slot I Sch Snn B SB U}
    (hj : JobOk api w.dirs R (hist api w.log) q' s) :
    JobOk api w'.dirs R' (hist api w'.log) q' s := by
  have he := h.extAll
  unfold JobOk at hj ⊢
  cases hjob : s.job with
  | idle => trivial
  | create d i pc =>
    rw [hjob] at hj
    exact ⟨hj.1, fun hpc => (hj.2 hpc).ext (he d)⟩
  | open1 d ro m =>
    rw [hjob] at hj
    exact MetaAt.ext hj (he d).revs
  | open2 d ro m i db =>
    rw [hjob] at hj
    exact ⟨hj.1.ext (he d).revs, (he d).initial _ hj.2.1, hj.2.2.later ((he d).bags _)⟩
  | open3 d ro m i db sb s =>
    rw [hjob] at hj
    exact ⟨hj.1.ext (he d).revs, (he d).initial _ hj.2.1, hj.2.2.1.later ((he d).bags _),
      hj.2.2.2.1.later ((he d).bags _), hj.2.2.2.2⟩
  | copy1 src =>
    rw [hjob] at hj
    exact MgrOk.ext hj (he _)
  | copy2 src db =>
    rw [hjob] at hj
    exact ⟨hj.1.ext (he _), hj.2.later ((he _).bags _)⟩
  | copy3 src db sb =>
    rw [hjob] at hj
    exact ⟨hj.1.ext (he _), hj.2.1.later ((he _).bags _), hj.2.2.later ((he _).bags _)⟩
  | update u p base pc =>
    rw [hjob] at hj
    obtain ⟨m, r, hm, hu, ha⟩ := hj
    exact ⟨m, r, hm, { hu with at_ := prefix_getElem? (h.histAll m.dir) hu.at_ },
      fun hpc => (ha hpc).ext (he _)⟩
  | draw src i =>
    rw [hjob] at hj
    exact ⟨hj.1.ext (he _), hj.2⟩
  | claim src i s =>
    rw [hjob] at hj
    exact ⟨hj.1.ext (he _), hj.2⟩
  | branch src i d pc =>
    rw [hjob] at hj
    exact ⟨hj.1.ext (he _), hj.2⟩

omit [DecidableEq Snn] in
theorem autoTarget_branch (src : Mgr I Sch Snn B SB U) (i : Nat) (p : Path) (s : Nat)
    (pc : BranchPc) : autoTarget (.branch src i (.branch p s) pc) = some (p, s) := rfl

/-- An action preserves the invariant if the instance that acted is fine afterwards. -/
theorem Inv.move (hi : Inv api w R) (h : Move api w w' R R' q d0) (hs : SlotOk api w w' R' q) :
    Inv api w' R' := by
  refine
    { dirs := ?_, fresh := ?_, mgrs := ?_, jobs := ?_, build := ?_, uniq := ?_, pend := ?_,
      autoEmpty := ?_, autoIn := ?_, autoUniq := ?_, autoInit := ?_, legal := h.legal }
  · intro d
    by_cases hd : d = d0
    · rw [hd]; exact h.ok
    · rw [h.dirs d hd, h.revs d hd, h.histO d hd]; exact hi.dirs d
  · intro d k n hn
    by_cases hd : d = d0
    · rw [hd] at hn; exact h.fresh k n hn
    · rw [h.dirs d hd] at hn
      have := hi.fresh d k n hn
      by_cases ho : n.owner = q
      · rw [ho] at this ⊢
        exact Nat.lt_of_lt_of_le this h.seq
      · rw [h.slots _ ho]; exact this
  · intro q' m hm
    by_cases hq : q' = q
    · rw [hq] at hm; exact hs.mgr m hm
    · rw [h.slots q' hq] at hm
      exact (hi.mgrs q' m hm).ext (h.extAll _)
  · intro q'
    by_cases hq : q' = q
    · rw [hq]; exact hs.job
    · rw [h.slots q' hq]
      exact JobOk.move h (hi.jobs q')
  · intro q' b hb
    by_cases hq : q' = q
    · rw [hq] at hb; exact (hs.build b hb).1
    · rw [h.slots q' hq] at hb
      by_cases hd : b.dir = d0
      · rw [hd]; exact h.build q' hq b hb hd
      · rw [h.dirs _ hd, h.revs _ hd]; exact hi.build q' b hb
  · intro q1 q2 b1 b2 h1 h2 hd
    by_cases hq1 : q1 = q
    · by_cases hq2 : q2 = q
      · rw [hq1, hq2]
      · exfalso
        rw [hq1] at h1
        rw [h.slots q2 hq2] at h2
        exact (hs.build b1 h1).2 q2 hq2 b2 h2 hd.symm
    · by_cases hq2 : q2 = q
      · exfalso
        rw [hq2] at h2
        rw [h.slots q1 hq1] at h1
        exact (hs.build b2 h2).2 q1 hq1 b1 h1 hd
      · rw [h.slots q1 hq1] at h1
        rw [h.slots q2 hq2] at h2
        exact hi.uniq q1 q2 b1 b2 h1 h2 hd
  · intro q' u p base pc m hj hm hpc
    by_cases hq : q' = q
    · rw [hq] at hj hm ⊢
      exact hs.pend u p base pc m hj hm hpc
    · rw [h.slots q' hq] at hj hm
      obtain ⟨hf, hg⟩ := hi.pend q' u p base pc m hj hm hpc
      refine ⟨?_, ?_⟩
      · intro d k n hn ho hb
        by_cases hd : d = d0
        · rw [hd] at hn ⊢
          rcases h.names k n hn with h1 | h1 | ⟨d1, h1⟩
          · exact hf d0 k n h1 ho hb
          · exact absurd (ho.symm.trans h1) hq
          · exact absurd (hg d1 k n h1 ho) (by omega)
        · rw [h.dirs d hd] at hn
          exact hf d k n hn ho hb
      · intro d k n hn ho
        by_cases hd : d = d0
        · rw [hd] at hn
          rcases h.rnames k n hn with h1 | ⟨d1, h1⟩
          · exact absurd (ho.symm.trans h1) hq
          · exact hg d1 k n h1 ho
        · rw [h.revs d hd] at hn
          exact hg d k n hn ho
  · intro p s hc
    by_cases hd : Path.branch p s = d0
    · rw [hd]; exact h.autoE p s hd.symm hc
    · rw [h.dirs _ hd]
      apply hi.autoEmpty p s
      intro hc'
      apply hc
      by_cases hp : p = d0
      · rw [hp] at hc' ⊢; exact h.claimed s hc'
      · rw [h.dirs p hp]; exact hc'
  · intro q' p s ht
    by_cases hq : q' = q
    · rw [hq] at ht; exact (hs.auto p s ht).1
    · rw [h.slots q' hq] at ht
      have := hi.autoIn q' p s ht
      by_cases hp : p = d0
      · rw [hp] at this ⊢; exact h.claimed s this
      · rw [h.dirs p hp]; exact this
  · intro q1 q2 p s h1 h2
    by_cases hq1 : q1 = q
    · by_cases hq2 : q2 = q
      · rw [hq1, hq2]
      · exfalso
        rw [hq1] at h1
        rw [h.slots q2 hq2] at h2
        exact (hs.auto p s h1).2 q2 hq2 h2
    · by_cases hq2 : q2 = q
      · exfalso
        rw [hq2] at h2
        rw [h.slots q1 hq1] at h1
        exact (hs.auto p s h2).2 q1 hq1 h1
      · rw [h.slots q1 hq1] at h1
        rw [h.slots q2 hq2] at h2
        exact hi.autoUniq q1 q2 p s h1 h2
  · intro q' src i p s hj
    by_cases hq : q' = q
    · rw [hq] at hj; exact hs.autoInit src i p s hj
    · rw [h.slots q' hq] at hj
      by_cases hd : Path.branch p s = d0
      · rw [hd]; exact h.autoI q' hq src i p s hj hd
      · rw [h.dirs _ hd]
        exact hi.autoInit q' src i p s hj

end

end Verif.SliceManager
