import Verif.Clone.Explicit
import Verif.Clone.Succeeds
import Verif.Traverse.Theorems

/-!
C84: what `kd.deep_clone` returns.
-/

namespace Verif.Clone

open Verif.ObjectId
open Verif.Uuid
open Verif.Traverse

variable {S : Type} {H : HashFn S} {alloc : Nat → BitVec 6 → BitVec 6 → AllocationId}
  {b : Bag} {ds : List Item} {s : Item}

/-- C84. The slice and the bag that `deep_clone` returns are a clone of the slice. -/
theorem C84_clone {fuel : Nat} {out : List Item} {st : State} (hb : b.Ok) (ho : Ordinary H b ds s)
    (h : deepClone H alloc b fuel ds s = some (.ok (out, st)))
    (hA : NewIds alloc st.count (Mentioned b ds s))
    (hC : NoCollision H alloc st.count b (Mentioned b ds s)) :
    ∃ c, IsClone H b ds s c out st.bag :=
  ⟨_, clone_ok hb ho h hA hC⟩

/-- C84. The explicit schemas whose content is copied are those that are used. -/
theorem C84_schemas {fuel : Nat} {out : List Item} {st : State} (hb : b.Ok)
    (ho : Ordinary H b ds s) (h : deepClone H alloc b fuel ds s = some (.ok (out, st)))
    (o : ObjectId) : o ∈ st.explicit ↔ UsedSchema b ds s o :=
  explicit_ok hb ho h o

/-- C84. `deep_clone` ends for data with cycles, if finitely many items can be reached. -/
theorem C84_ends (hb : b.Ok) (ho : Ordinary H b ds s) {U : List Pair}
    (hU : ∀ p, Reached b ds s p → p ∈ U) :
    ∃ fuel r, ∀ n, fuel ≤ n → deepClone H alloc b n ds s = some r := by
  by_cases hs : s = kSchema
  · exact ⟨0, .error .unsupported, fun n _ => by unfold deepClone; rw [if_pos hs]⟩
  obtain ⟨fuel, r, hr⟩ := traverse_stops hb (decides_clone (H := H) (alloc := alloc))
    (follow_own ho) (fun r p h1 h2 => hU p ⟨r, h1, h2⟩) State.start
  match r, hr with
  | .error e, hr => exact ⟨fuel, .error e, fun n hn => by
      unfold deepClone; rw [if_neg hs, hr n hn]⟩
  | .ok st, hr => exact ⟨fuel, resultItems alloc s st ds, fun n hn => by
      unfold deepClone; rw [if_neg hs, hr n hn]⟩

/-- C84. For well-typed data without metadata `deep_clone` does not fail: whatever it returns is a
clone. There is at most one new allocation for each allocation of the ids in `U`. -/
theorem C84_succeeds {fuel : Nat} {r : Except Err (List Item × State)} {U : List AllocationId}
    (hb : b.Ok) (ho : Ordinary H b ds s) (hcl : Clonable b ds s)
    (hU : ∀ o, Mentioned b ds s o → AllocationId.ofObject o ∈ U)
    (hA : NewIds alloc U.length (Mentioned b ds s))
    (hC : NoCollision H alloc U.length b (Mentioned b ds s))
    (h : deepClone H alloc b fuel ds s = some r) :
    ∃ out st, r = .ok (out, st) ∧ st.count ≤ U.length ∧ ∃ c, IsClone H b ds s c out st.bag := by
  obtain ⟨out, st, rfl, hn⟩ := clone_succeeds hb ho hcl hU hA hC h
  exact ⟨out, st, rfl, hn, C84_clone hb ho h (hA.mono hn) (hC.mono hn)⟩

/-! ### Example

An object that refers to itself and to a list of two entities with ids of one allocation. -/

def exObject : ObjectId := ⟨1, 4, 0, 32#64⟩
def exImplicit : ObjectId := implicitOf exHash exObject
def exKid (n : Nat) : ObjectId := ⟨1, 4, 0, BitVec.ofNat 64 n⟩

def exData : Bag where
  attr := fun o n =>
    if o = exObject then
      (if n = schemaAttrName then .object exImplicit else if n = exA then .int32 7
        else if n = exMe then .object exObject
        else if n = exKids then .object (exList 5) else .missing)
    else if o = exKid 1 then (if n = exA then .int32 8 else .missing)
    else if o = exKid 2 then (if n = exA then .int32 9 else .missing)
    else .missing
  list := fun o => if o = exList 5 then [.object (exKid 1), .object (exKid 2)] else []
  dict := fun _ => []
  schemaAttrs := fun o =>
    if o = exImplicit then
      [(exA, .dtype 1), (exMe, .dtype 11), (exKids, .object (exSchema 1))]
    else if o = exSchema 1 then [(itemsName, .object (exSchema 2))]
    else if o = exSchema 2 then [(exA, .dtype 1)]
    else []

/-- The allocations of the example: ids of the allocators from 100 on. -/
def exAlloc (i : Nat) (m k : BitVec 6) : AllocationId := ⟨⟨BitVec.ofNat 52 (100 + i), k, m, 0⟩⟩

/-- A clone of the object of the example. -/
def exClone : Option (Except Err (List Item × State)) :=
  deepClone exHash exAlloc exData 100 [.object exObject, .missing] (.dtype 11)

/-- The number of allocations, the explicit schemas, and what can be seen of the clone. -/
def exSeen : Option (Nat × List ObjectId × List Item × List Item × List Item) :=
  match exClone with
  | some (.ok (out, st)) => match out with
    | .object x :: _ => match st.bag.attr x exKids with
      | .object l => some (st.count, st.explicit, out, [st.bag.attr x exA, st.bag.attr x exMe,
          st.bag.attr x schemaAttrName], st.bag.list l)
      | _ => none
    | _ => none
  | _ => none

/-- The clone refers to itself, has its own implicit schema, and its children have new ids of one
allocation with the old offsets. -/
theorem exClone_seen : exSeen =
    let x : ObjectId := ⟨100, 4, 0, 0⟩
    some (3, [exSchema 1, exSchema 2, exSchema 2, exSchema 1], [.object x, .missing],
      [.int32 7, .object x, .object (implicitOf exHash x)],
      [.object ⟨102, 4, 0, 1⟩, .object ⟨102, 4, 0, 2⟩]) := by
  decide +kernel

theorem exData_ok : exData.Ok := by
  intro S
  simp only [exData]
  split
  · decide
  · split
    · decide
    · split <;> decide

/-- The order of the walk. -/
def exWalk : Option (List Pair) :=
  match initDfs (cloneVisitor exHash exAlloc) .start [.object exObject, .missing] (.dtype 11) with
  | .ok d => match dfs (cloneVisitor exHash exAlloc) exData 100 d with
    | some (.ok d') => some d'.order
    | _ => none
  | _ => none

/-- What the clone looks at. -/
def exLook : List Pair :=
  [(.object (exKid 2), .object (exSchema 2)), (.object (exKid 1), .object (exSchema 2)),
   (.object (exList 5), .object (exSchema 1)), (.object exImplicit, .dtype 12),
   (.object exObject, .dtype 11)]

theorem exData_schema (x : ObjectId) : exData.attr x (named "__schema__") = .missing ∨
    (x = exObject ∧ exData.attr x (named "__schema__") = .object exImplicit) := by
  rw [named_schema]
  simp only [exData]
  by_cases h1 : x = exObject
  · subst h1; exact .inr ⟨rfl, by rw [if_pos rfl, if_pos trivial]⟩
  · refine .inl ?_
    rw [if_neg h1]
    split
    · rfl
    · split <;> rfl

theorem exData_reached (p : Pair) :
    Reached exData [.object exObject, .missing] (.dtype 11) p ↔ p ∈ exLook := by
  have hobj : ∀ x e, Own exData x kObject e →
      follow (.object x, kObject) (some .objectSchema) (.object x, e) = true := by
    intro x e h
    generalize hk : kObject = k at h
    cases h with
    | object h1 h2 =>
      rcases exData_schema x with h3 | ⟨_, h3⟩
      · rw [h3] at h1; exact absurd h1.symm h2
      · rw [h3] at h1; subst h1; rfl
    | other h1 => exact absurd hk.symm h1
  have h : exWalk = some exLook := by decide +kernel
  unfold exWalk at h
  split at h
  · rename_i d hd
    split at h
    · rename_i d' hd'
      simp only [Option.some.injEq] at h
      rw [← h]
      exact ((search_order exData_ok decides_clone hobj hd hd').2.1 p).symm
    · cases h
  · cases h

/-- The data of the example is ordinary. -/
theorem exData_ordinary :
    Ordinary exHash exData [.object exObject, .missing] (.dtype 11) := by
  refine ⟨?_, ?_, ?_, ?_, ?_, ?_, ?_, ?_⟩
  · intro x
    rcases exData_schema x with h | ⟨_, h⟩
    · exact .inl h
    · exact .inr ⟨_, h⟩
  · intro x T h _
    rcases exData_schema x with h1 | ⟨rfl, h1⟩
    · rw [h1] at h; cases h
    · rw [h1, Item.object.injEq] at h; subst h; exact ⟨rfl, by decide⟩
  · intro U n T h
    simp only [exData] at h
    split at h
    · simp at h; rw [h.2]; decide
    · split at h
      · simp at h; rw [h.2]; decide
      · split at h <;> simp at h
  · intro T h; cases h
  · intro U t h
    rw [named_schema] at h
    simp only [exData] at h
    have h1 : schemaAttrName ≠ exA := by decide
    have h2 : schemaAttrName ≠ exMe := by decide
    have h3 : schemaAttrName ≠ exKids := by decide
    have h4 : schemaAttrName ≠ itemsName := by decide
    split at h
    · simp [h1, h2, h3] at h
    · split at h
      · simp [h4] at h
      · split at h <;> simp [h1] at h
  · intro x; exact List.nodup_nil
  · intro x t h ht
    rw [exData_reached] at h
    simp only [exLook, List.mem_cons, Prod.mk.injEq, Item.object.injEq, List.not_mem_nil,
      or_false] at h
    rcases h with ⟨rfl, rfl⟩ | ⟨rfl, rfl⟩ | ⟨rfl, rfl⟩ | ⟨rfl, rfl⟩ | ⟨rfl, rfl⟩ <;>
      first | decide | (rcases ht with ht | ⟨T, ht⟩ <;> cases ht)
  · intro x s1 s2 T1 T2 h1 h2 o1 o2
    rw [exData_reached] at h1 h2
    have h : ∀ p ∈ exLook, ∀ q ∈ exLook, p.1 = q.1 → p.2 = q.2 := by decide +kernel
    have := h _ h1 _ h2 rfl
    simp only at this
    subst this
    have := Own.unique o1 o2
    cases this
    rfl

/-- The ids of the example. -/
def exOld : List ObjectId :=
  [exObject, exImplicit, exList 5, exKid 1, exKid 2, exSchema 1, exSchema 2]

theorem exData_mentioned {o : ObjectId}
    (h : Mentioned exData [.object exObject, .missing] (.dtype 11) o) : o ∈ exOld := by
  cases h with
  | item h => simp at h; subst h; simp [exOld]
  | schema h => cases h
  | attr h =>
    simp only [exData] at h
    repeat' split at h
    all_goals first | (rw [Item.object.injEq] at h; subst h; simp [exOld]) | cases h
  | list h =>
    simp only [exData] at h
    split at h
    · simp at h; rcases h with rfl | rfl <;> simp [exOld]
    · cases h
  | key h => cases h
  | value h => cases h
  | schemaAttr h =>
    simp only [exData] at h
    split at h
    · simp at h; obtain ⟨_, rfl⟩ := h; simp [exOld]
    · split at h
      · simp at h; obtain ⟨_, rfl⟩ := h; simp [exOld]
      · split at h <;> simp at h

/-- The new ids of the example are new. -/
theorem exData_new :
    NewIds exAlloc 6 (Mentioned exData [.object exObject, .missing] (.dtype 11)) := by
  refine ⟨fun _ _ _ => rfl, fun _ _ _ => rfl, ?_, ?_, ?_⟩
  · intro i m k
    simp [exAlloc, AllocationId.ofObject]
  · intro i j m k m' k' h1 h2 h
    have := congrArg (fun a : AllocationId => a.raw.allocatorId.toNat) h
    simp [exAlloc] at this
    omega
  · intro i m k o h1 h2 h
    have h3 : ∀ o ∈ exOld, ∀ i, i < 6 →
        (AllocationId.ofObject o).raw.allocatorId ≠ BitVec.ofNat 52 (100 + i) := by
      decide +kernel
    exact h3 o (exData_mentioned h2) i h1 (congrArg (fun a : AllocationId => a.raw.allocatorId) h)

/-- There are no collisions in the example. -/
theorem exData_collision :
    NoCollision exHash exAlloc 6 exData
      (Mentioned exData [.object exObject, .missing] (.dtype 11)) := by
  have hx : ∀ x, HasImplicit exHash exData x → x = exObject := by
    intro x h
    rcases exData_schema x with h1 | ⟨h1, _⟩
    · unfold HasImplicit at h; rw [h1] at h; cases h
    · exact h1
  refine ⟨?_, ?_, ?_⟩
  · intro x y h1 h2 _; rw [hx x h1, hx y h2]
  · intro i j x y h1 h2 h3 h4 h5
    rw [hx x h3, hx y h4] at h5 ⊢
    have : ∀ i, i < 6 → ∀ j, j < 6 → AllocationId.ofObject (implicitOf exHash
        (exAlloc i (exObject.metadata &&& ~~~1#6) exObject.offsetBits).raw) =
        AllocationId.ofObject (implicitOf exHash
          (exAlloc j (exObject.metadata &&& ~~~1#6) exObject.offsetBits).raw) → i = j := by
      decide +kernel
    rw [this i h1 j h2 h5]
  · intro i x o h1 h2 h3
    rw [hx x h2]
    have : ∀ o ∈ exOld, ∀ i, i < 6 → AllocationId.ofObject o ≠ AllocationId.ofObject
        (implicitOf exHash (exAlloc i (exObject.metadata &&& ~~~1#6) exObject.offsetBits).raw) := by
      decide +kernel
    exact this o (exData_mentioned h3) i h1

/-- The theorem applies to the example. -/
example : ∃ out st, exClone = some (.ok (out, st)) ∧
    ∃ c, IsClone exHash exData [.object exObject, .missing] (.dtype 11) c out st.bag := by
  have h := exClone_seen
  unfold exSeen at h
  split at h
  · rename_i out st hc
    refine ⟨out, st, hc, ?_⟩
    have hn : st.count = 3 := by
      split at h
      · split at h
        · simp only [Option.some.injEq, Prod.mk.injEq] at h; exact h.1
        · cases h
      · cases h
    exact C84_clone exData_ok exData_ordinary hc (exData_new.mono (by omega))
      (exData_collision.mono (by omega))
  · cases h

/-- The data of the example is well-typed. -/
theorem exData_clonable : Clonable exData [.object exObject, .missing] (.dtype 11) := by
  have hfit : ∀ {y t : Item}, isPrimitiveSchema t = false → Fits (y, t) := by
    intro y t h hp
    rw [primitive_iff] at hp
    simp only at hp
    rw [h] at hp
    cases hp
  have attrs : ∀ U n t, (n, t) ∈ exData.schemaAttrs U →
      (n = exA ∧ t = .dtype 1) ∨ (n = exMe ∧ t = .dtype 11) ∨
      (n = exKids ∧ t = .object (exSchema 1)) ∨ (n = itemsName ∧ t = .object (exSchema 2)) := by
    intro U n t h
    simp only [exData] at h
    repeat' split at h
    all_goals simp at h
    · rcases h with h | h | h
      · exact .inl h
      · exact .inr (.inl h)
      · exact .inr (.inr (.inl h))
    · exact .inr (.inr (.inr h))
    · exact .inl h
  have i32 : ∀ x, ∃ v, exData.attr x exA = .int32 v ∨ exData.attr x exA = .missing := by
    intro x
    simp only [exData]
    repeat' split
    all_goals first | exact ⟨_, .inl rfl⟩ | exact ⟨0, .inr rfl⟩ |
      (rename_i h; exact absurd h (by decide))
  have entity : ∀ x (T : ObjectId) n p, EntityAttr exData x T n p → Fits p := by
    rintro x T n p ⟨t, h1, _, rfl⟩
    rcases attrs T n t h1 with ⟨rfl, rfl⟩ | ⟨rfl, rfl⟩ | ⟨rfl, rfl⟩ | ⟨rfl, rfl⟩
    · intro _
      obtain ⟨v, h | h⟩ := i32 x
      · exact .inr ⟨1, rfl, by simp only [h]; exact .int32⟩
      · exact .inl h
    · exact hfit rfl
    · exact hfit rfl
    · exact hfit rfl
  have plain : ∀ T, T = exImplicit ∨ T = exSchema 2 → PlainSchema exData T := by
    have h1 : ∀ T ∈ [exImplicit, exSchema 2], itemsName ∉ (exData.schemaAttrs T).map (·.1) ∧
        keysName ∉ (exData.schemaAttrs T).map (·.1) ∧
        valuesName ∉ (exData.schemaAttrs T).map (·.1) := by decide +kernel
    intro T hT t
    obtain ⟨a1, a2, a3⟩ := h1 T (by simpa using hT)
    rw [named_items, named_keys, named_values]
    exact ⟨fun h => a1 (List.mem_map.mpr ⟨_, h, rfl⟩), fun h => a2 (List.mem_map.mpr ⟨_, h, rfl⟩),
      fun h => a3 (List.mem_map.mpr ⟨_, h, rfl⟩)⟩
  refine ⟨⟨by simp, .inl ⟨11, rfl⟩⟩, fun y _ => hfit rfl, ?_, ?_, ?_, ?_⟩
  · intro x s' h
    rw [exData_reached] at h
    simp only [exLook, List.mem_cons, Prod.mk.injEq, Item.object.injEq, List.not_mem_nil,
      or_false] at h
    have kid : ∀ x, Typed exData x (.object (exSchema 2)) := fun x =>
      .entity (by decide) (by decide) (plain _ (.inr rfl)) (entity x _)
    rcases h with ⟨rfl, rfl⟩ | ⟨rfl, rfl⟩ | ⟨rfl, rfl⟩ | ⟨rfl, rfl⟩ | ⟨rfl, rfl⟩
    · exact ⟨_, .other (by simp), kid _, by simp⟩
    · exact ⟨_, .other (by simp), kid _, by simp⟩
    · refine ⟨_, .other (by simp), .list (t := .object (exSchema 2)) (by decide) (by decide) ?_
        (by decide) (fun y _ => hfit rfl), by simp⟩
      unfold ListSchema
      rw [named_items]
      decide +kernel
    · refine ⟨_, .other (by simp), .schema (by decide +kernel) (by decide +kernel) ?_, by simp⟩
      rintro n p ⟨t, k, h1, h2, rfl⟩
      have : k = .dtype 12 := by
        have hk := (attrKind_iff _ _).mp h2
        rcases attrs _ n t h1 with ⟨rfl, _⟩ | ⟨rfl, _⟩ | ⟨rfl, _⟩ | ⟨rfl, _⟩ <;>
          rw [← hk] <;> decide
      subst this
      exact hfit rfl
    · refine ⟨.object exImplicit, .object ?_ (by simp), .entity (by decide +kernel)
        (by decide +kernel) (plain _ (.inl rfl)) (entity _ _), fun _ => ⟨_, rfl⟩⟩
      rcases exData_schema exObject with h | ⟨_, h⟩
      · revert h; rw [named_schema]; decide +kernel
      · exact h
  · intro U n t h _
    rcases attrs U n t h with ⟨_, rfl⟩ | ⟨_, rfl⟩ | ⟨_, rfl⟩ | ⟨_, rfl⟩
    · exact .inl ⟨1, rfl⟩
    · exact .inl ⟨11, rfl⟩
    · exact .inr ⟨_, rfl⟩
    · exact .inr ⟨_, rfl⟩
  · intro T t _ h
    rw [named_metadata] at h
    rcases attrs T _ t h with ⟨h1, _⟩ | ⟨h1, _⟩ | ⟨h1, _⟩ | ⟨h1, _⟩ <;> revert h1 <;> decide
  · intro x s' e k o h hown href
    have hm := exData_mentioned ((ref_mentioned (reached_mentioned h).2 hown href).1 o rfl)
    have hs : ∀ U n t, (n, t) ∈ exData.schemaAttrs U → t ≠ .dtype 12 := by
      intro U n t h1
      rcases attrs U n t h1 with ⟨_, rfl⟩ | ⟨_, rfl⟩ | ⟨_, rfl⟩ | ⟨_, rfl⟩ <;> simp
    have hs' : ∀ U n y, (n, .object y) ∈ exData.schemaAttrs U → y.isSchema = true := by
      intro U n y h1
      rcases attrs U n _ h1 with ⟨_, h2⟩ | ⟨_, h2⟩ | ⟨_, h2⟩ | ⟨_, h2⟩
      · cases h2
      · cases h2
      · rw [Item.object.injEq] at h2; subst h2; decide
      · rw [Item.object.injEq] at h2; subst h2; decide
    generalize hq : ((Item.object o, Item.dtype 12) : Pair) = q at href
    cases href with
    | @schema T =>
      simp only [Prod.mk.injEq, Item.object.injEq, and_true] at hq
      subst hq
      generalize hT : Item.object o = e at hown
      cases hown with
      | object h1 h2 =>
        rcases exData_schema x with h3 | ⟨_, h3⟩
        · rw [h3] at h1; exact absurd h1.symm h2
        · rw [h3, ← hT, Item.object.injEq] at h1; subst h1; decide +kernel
      | other _ =>
        subst hT
        have : ∀ p ∈ exLook, ∀ T ∈ exOld, p.2 = .object T → T.isSchema = true := by decide +kernel
        exact this _ ((exData_reached _).mp h) o hm rfl
    | @listItem T y t i h1 h2 _ _ =>
      simp only [Prod.mk.injEq] at hq
      obtain ⟨_, rfl⟩ := hq
      exact absurd rfl (hs T (named "__items__") _ (by rw [h2]; simp))
    | @dictKey T y k v z i h1 h2 _ _ =>
      simp only [Prod.mk.injEq] at hq
      obtain ⟨_, rfl⟩ := hq
      exact absurd rfl (hs T (named "__keys__") _ (by rcases h2 with h2 | h2 <;> rw [h2] <;> simp))
    | @dictValue T y k v z i h1 h2 _ _ =>
      simp only [Prod.mk.injEq] at hq
      obtain ⟨_, rfl⟩ := hq
      exact absurd rfl (hs T (named "__values__") _ (by rcases h2 with h2 | h2 <;> rw [h2] <;> simp))
    | @attr T y n t _ _ h1 _ _ =>
      simp only [Prod.mk.injEq] at hq
      obtain ⟨_, rfl⟩ := hq
      exact absurd rfl (hs T n _ h1)
    | @schemaAttr y n k _ h1 _ =>
      simp only [Prod.mk.injEq, Item.object.injEq] at hq
      obtain ⟨rfl, _⟩ := hq
      exact hs' x n _ h1

/-- The clone of the example does not fail. -/
example : ∃ out st, exClone = some (.ok (out, st)) := by
  have hU : ∀ o, Mentioned exData [.object exObject, .missing] (.dtype 11) o →
      AllocationId.ofObject o ∈ ((exOld.map AllocationId.ofObject).eraseDups) := by
    intro o h
    have : ∀ o ∈ exOld, AllocationId.ofObject o ∈ ((exOld.map AllocationId.ofObject).eraseDups) := by
      decide +kernel
    exact this o (exData_mentioned h)
  have hn : ((exOld.map AllocationId.ofObject).eraseDups).length ≤ 6 := by decide +kernel
  cases h : exClone with
  | none => exact absurd h (by unfold exClone; decide +kernel)
  | some r =>
    obtain ⟨out, st, rfl, _⟩ := C84_succeeds exData_ok exData_ordinary exData_clonable hU
      (exData_new.mono hn) (exData_collision.mono hn) h
    exact ⟨out, st, rfl⟩

/-- It ends. -/
example : ∃ fuel r, ∀ n, fuel ≤ n →
    deepClone exHash exAlloc exData n [.object exObject, .missing] (.dtype 11) = some r :=
  C84_ends exData_ok exData_ordinary (fun p h => (exData_reached p).mp h)

end Verif.Clone
