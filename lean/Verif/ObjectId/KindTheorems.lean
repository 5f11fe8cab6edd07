import Verif.ObjectId.AllocTheorems

/-! C46: every id shows the kind it was created with. -/

namespace Verif.ObjectId

/-! ### Specification -/

/-- What an id can be. -/
inductive Kind where
  | entity
  | list
  | dict
  | implicitSchema
  | explicitSchema
deriving DecidableEq

/-- The kind is one of schemas. -/
def Kind.isSchema : Kind → Bool
  | .implicitSchema | .explicitSchema => true
  | .entity | .list | .dict => false

/-- The answers that the predicates of the public interface give for an id of the
kind, made from a hash (`u`) or not, and being a nofollow version of a schema (`n`)
or not. -/
structure Shows (o : ObjectId) (k : Kind) (u n : Bool) : Prop where
  entity : o.isEntity = (k == .entity)
  list : o.isList = (k == .list)
  dict : o.isDict = (k == .dict)
  schema : o.isSchema = k.isSchema
  implicit : o.isImplicitSchema = (k == .implicitSchema && !n)
  explicit : o.isExplicitSchema = (k == .explicitSchema || n)
  nofollow : o.isNoFollowSchema = n
  uuid : o.isUuid = u
  allocated : o.isAllocated = !u

/-- The kind that a call asks for (`like` has no kind of its own). -/
def Call.kind : Call → Option Kind
  | .objects _ | .object => some .entity
  | .lists _ | .list => some .list
  | .dicts _ | .dict => some .dict
  | .schemas _ | .schema => some .explicitSchema
  | .like _ => none

/-- The kind that a type of uuid asks for. -/
def UuidType.kind : UuidType → Kind
  | .default => .entity
  | .list => .list
  | .dict => .dict

/-- The ways in which ids come into being. -/
inductive Created : ObjectId → Kind → Bool → Bool → Prop
  /-- an element of a new allocation -/
  | call {p p' : Process} {t : Nat} {c : Call} {a : AllocationId} {k : Kind} (off : BitVec 64) :
      Reachable p → c.size ≤ 2 ^ 63 → Verif.ObjectId.call p t c = some (p', a) →
      c.kind = some k → Created (a.objectByOffset off) k false false
  /-- an element of an allocation made in the likeness of that of another id that is
  not an implicit schema -/
  | like {p p' : Process} {t : Nat} {o : ObjectId} {a : AllocationId} {k : Kind} {u n : Bool}
      (off : BitVec 64) : Created o k u n → k ≠ .implicitSchema → Reachable p →
      (AllocationId.ofObject o).capacity.toNat ≤ 2 ^ 63 →
      Verif.ObjectId.call p t (.like (AllocationId.ofObject o)) = some (p', a) →
      Created (a.objectByOffset off) k false n
  /-- a uuid -/
  | uuid (fp : BitVec 128) (type : UuidType) : Created (createUuidObject fp type) type.kind true false
  /-- an element of an allocation of uuids -/
  | uuids (fp : BitVec 128) (size off : BitVec 64) :
      Created ((allocateUuids fp size).objectByOffset off) .entity true false
  /-- the uuid of a schema -/
  | uuidSchema (fp : BitVec 128) : Created (createUuidExplicitSchema fp) .explicitSchema true false
  /-- a uuid derived from a main object -/
  | uuidOfMain (main : ObjectId) (fp : BitVec 128) :
      Created (createUuidWithMainObject kUuidFlag main fp) .entity true false
  /-- the implicit schema of a main object -/
  | schemaOfMain (main : ObjectId) (fp : BitVec 128) :
      Created (createUuidWithMainObject kUuidImplicitSchemaFlag main fp) .implicitSchema true false
  /-- the nofollow version of a schema -/
  | nofollow {o : ObjectId} {k : Kind} {u : Bool} : Created o k u false → k.isSchema = true →
      Created (createNoFollowWithMainObject o) k u true
  /-- and back -/
  | original {o : ObjectId} {k : Kind} {u : Bool} : Created o k u true → Created
      (getOriginalFromNoFollow o) k u false

/-- The flags that belong to a kind. -/
def flagsOf (k : Kind) (uuid nofollow : Bool) : BitVec 6 :=
  (match k with
    | .entity => 0
    | .list => kListFlag
    | .dict => kDictFlag
    | .implicitSchema => kStartSchemaFlag
    | .explicitSchema => kExplicitSchemaFlag) |||
    (if uuid then kUuidFlag else 0) ||| (if nofollow then kNoFollowSchemaFlag else 0)

theorem shows_of_flags (o : ObjectId) (k : Kind) (u n : Bool) (h : o.metadata = flagsOf k u n)
    (hi : k = .implicitSchema → u = true) (hn : n = true → k.isSchema = true) :
    Shows o k u n := by
  obtain ⟨al, ob, m, id⟩ := o
  simp only at h
  subst h
  cases k <;> cases u <;> cases n <;>
    first
    | exact absurd (hi rfl) (by decide)
    | exact absurd (hn rfl) (by decide)
    | constructor <;>
        simp only [ObjectId.isEntity, ObjectId.isList, ObjectId.isDict, ObjectId.isSchema,
          ObjectId.isImplicitSchema, ObjectId.isExplicitSchema, ObjectId.isNoFollowSchema,
          ObjectId.isAllocated, ObjectId.isUuid] <;> first | decide | rfl

theorem created_flags {o : ObjectId} {k : Kind} {u n : Bool} (h : Created o k u n) :
    o.metadata = flagsOf k u n ∧ (k = .implicitSchema → u = true) ∧
      (n = true → k.isSchema = true) := by
  induction h with
  | @call p p' t c a k off hp hs hc hk =>
    rcases C32_allocation_size p hp t c hs with ⟨_, h2⟩ | ⟨_, p1, a1, b, h2, _, _, _, _, h3⟩
    · rw [hc] at h2
      cases h2
    · rw [hc] at h2
      simp only [Option.some.injEq, Prod.mk.injEq] at h2
      rw [← h2.2] at h3
      refine ⟨?_, ?_, by simp⟩
      · show a.raw.metadata = _
        rw [h3]
        cases c <;> simp only [Call.kind, Option.some.injEq, reduceCtorEq] at hk <;>
          subst hk <;> simp only [Call.meta] <;> decide
      · intro e
        subst e
        cases c <;> simp [Call.kind] at hk
  | @like p p' t o a k u n off ho hk hp hs hc ih =>
    rcases C32_allocation_size p hp t (.like (AllocationId.ofObject o)) hs with ⟨_, h2⟩ | ⟨_, p1, a1, b, h2, _, _, _, _, h3⟩
    · rw [hc] at h2
      cases h2
    · rw [hc] at h2
      simp only [Option.some.injEq, Prod.mk.injEq] at h2
      rw [← h2.2] at h3
      refine ⟨?_, fun e => absurd e hk, ih.2.2⟩
      show a.raw.metadata = _
      rw [h3]
      show o.metadata &&& ~~~kUuidFlag = _
      rw [ih.1]
      cases k <;> cases u <;> cases n <;> decide
  | uuid fp type =>
    refine ⟨?_, ?_, by simp⟩
    · show uuidFlags type = _
      cases type <;> decide
    · cases type <;> simp [UuidType.kind]
  | uuids fp size off => exact ⟨rfl, by simp, by simp⟩
  | uuidSchema fp => exact ⟨by show kUuidExplicitSchemaFlag = _; decide, by simp, by simp⟩
  | uuidOfMain main fp => exact ⟨rfl, by simp, by simp⟩
  | schemaOfMain main fp => exact ⟨by show kUuidImplicitSchemaFlag = _; decide, by simp, by simp⟩
  | @nofollow o k u ho hk ih =>
    refine ⟨?_, ih.2.1, fun _ => hk⟩
    show o.metadata ||| kNoFollowSchemaFlag = _
    rw [ih.1]
    cases k <;> cases u <;> decide
  | @original o k u ho ih =>
    refine ⟨?_, ih.2.1, by simp⟩
    show o.metadata &&& ~~~(kNoFollowSchemaFlag &&& ~~~kStartSchemaFlag) = _
    have hk := ih.2.2 rfl
    rw [ih.1]
    cases k <;> first | (exact absurd hk (by decide)) | (cases u <;> decide)

/-! ### Theorems -/

/-- Every id answers the predicates according to the kind it was created with. -/
theorem C46_ids_show_their_kind {o : ObjectId} {k : Kind} {u n : Bool} (h : Created o k u n) :
    Shows o k u n := by
  obtain ⟨h1, h2, h3⟩ := created_flags h
  exact shows_of_flags o k u n h1 h2 h3

/-- No id whatsoever is of two kinds, implicit, explicit and nofollow schemas are
schemas, and nofollow schemas are explicit. -/
theorem C46_kinds_are_exclusive (o : ObjectId) :
    ¬ (o.isEntity = true ∧ o.isList = true) ∧ ¬ (o.isEntity = true ∧ o.isDict = true) ∧
    ¬ (o.isList = true ∧ o.isDict = true) ∧ ¬ (o.isSchema = true ∧ o.isEntity = true) ∧
    ¬ (o.isSchema = true ∧ o.isList = true) ∧ ¬ (o.isSchema = true ∧ o.isDict = true) ∧
    ¬ (o.isImplicitSchema = true ∧ o.isExplicitSchema = true) ∧
    (o.isImplicitSchema = true → o.isSchema = true) ∧
    (o.isExplicitSchema = true → o.isSchema = true) ∧
    (o.isNoFollowSchema = true → o.isExplicitSchema = true) := by
  unfold ObjectId.isEntity ObjectId.isList ObjectId.isDict ObjectId.isSchema
    ObjectId.isImplicitSchema ObjectId.isExplicitSchema ObjectId.isNoFollowSchema
  generalize o.metadata = m
  revert m
  decide

/-- The id that stands for an unspecified argument is of no kind. -/
theorem C46_unspecified_has_no_kind :
    createUnspecifiedObject.isEntity = false ∧ createUnspecifiedObject.isList = false ∧
    createUnspecifiedObject.isDict = false ∧ createUnspecifiedObject.isSchema = false := by
  decide

/-- An allocation made in the likeness of that of an implicit schema holds schemas
that are neither implicit nor explicit (`deep_clone` avoids this). -/
theorem C46_like_of_implicit_schema (p : Process) (hp : Reachable p) (t : Nat) (main : ObjectId)
    (fp : BitVec 128) (p' : Process) (a : AllocationId) (off : BitVec 64)
    (hs : (AllocationId.ofObject
      (createUuidWithMainObject kUuidImplicitSchemaFlag main fp)).capacity.toNat ≤ 2 ^ 63)
    (h : call p t (.like (AllocationId.ofObject
      (createUuidWithMainObject kUuidImplicitSchemaFlag main fp))) = some (p', a)) :
    (a.objectByOffset off).isSchema = true ∧ (a.objectByOffset off).isImplicitSchema = false ∧
      (a.objectByOffset off).isExplicitSchema = false := by
  rcases C32_allocation_size p hp t (.like (AllocationId.ofObject
      (createUuidWithMainObject kUuidImplicitSchemaFlag main fp))) hs with ⟨_, h2⟩ | ⟨_, p1, a1, b, h2, _, _, _, _, h3⟩
  · rw [h] at h2
    cases h2
  · rw [h] at h2
    simp only [Option.some.injEq, Prod.mk.injEq] at h2
    rw [← h2.2] at h3
    have hm : (a.objectByOffset off).metadata = 0b111000 := by
      show a.raw.metadata = _
      rw [h3]
      show kUuidImplicitSchemaFlag &&& ~~~kUuidFlag = _
      decide
    unfold ObjectId.isSchema ObjectId.isImplicitSchema ObjectId.isExplicitSchema
    rw [hm]
    decide

/-- Example: a nofollow version of the implicit schema of an element of a list
allocation. -/
example : Shows (createNoFollowWithMainObject (createUuidWithMainObject kUuidImplicitSchemaFlag
    ⟨5, 3, kListFlag, 0b1011010⟩ 77)) .implicitSchema true true :=
  C46_ids_show_their_kind (.nofollow (.schemaOfMain _ _) rfl)

end Verif.ObjectId
