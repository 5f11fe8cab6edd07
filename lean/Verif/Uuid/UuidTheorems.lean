import Verif.Uuid.InputTheorems
import Verif.ObjectId.SetTheorems

/-!
C35: ids made of fields do not depend on the order of the fields, and slices of ids
are made point by point. C36: ids made of main objects. C48: ids with one allocation.
-/

namespace Verif.Uuid

open Verif.ObjectId

variable {S : Type} (H : HashFn S)

/-! ### C35 -/

theorem sortedFingerprints_perm {fields fields' : List (Bytes × Item)} (h : fields.Perm fields')
    (hd : (fields.map (·.1)).Nodup) :
    sortedFingerprints H fields = sortedFingerprints H fields' := by
  unfold sortedFingerprints
  refine sortBy_eq_of_perm nameLt_weakOrder (h.map _) ?_
  apply eq_of_name
  rw [List.map_map]
  exact hd

/-- The order of fields with different names does not matter. -/
theorem C35_field_order {fields fields' : List (Bytes × Item)} (h : fields.Perm fields')
    (hd : (fields.map (·.1)).Nodup) (seed : Bytes) (type : UuidType) (items : List Item)
    (pairs : List (Item × Item)) :
    uuidFromFields H seed fields type = uuidFromFields H seed fields' type ∧
      schemaUuid H seed fields = schemaUuid H seed fields' ∧
      listUuid H seed items fields = listUuid H seed items fields' ∧
      dictUuid H seed pairs fields = dictUuid H seed pairs fields' := by
  have e := sortedFingerprints_perm H h hd
  unfold uuidFromFields schemaUuid listUuid dictUuid fingerprintFromFields
  rw [e]
  exact ⟨rfl, rfl, rfl, rfl⟩

/-- The order of the items of a dict does not matter if their keys have different
fingerprints. -/
theorem C35_dict_order {pairs pairs' : List (Item × Item)} (h : pairs.Perm pairs')
    (hd : (pairs.map (fun p => stableFingerprint H p.1)).Nodup) (seed : Bytes)
    (fields : List (Bytes × Item)) :
    dictUuid H seed pairs fields = dictUuid H seed pairs' fields := by
  unfold dictUuid hashDict
  have hm := h.map (fun p => (stableFingerprint H p.1, stableFingerprint H p.2))
  rw [sortBy_eq_of_perm keyLt_weakOrder hm, hm.length_eq]
  intro a ha b hb h1 h2
  rw [List.mem_map] at ha hb
  obtain ⟨p, hp, rfl⟩ := ha
  obtain ⟨q, hq, rfl⟩ := hb
  have hk : stableFingerprint H p.1 = stableFingerprint H q.1 := by
    unfold keyLt at h1 h2
    simp only [decide_eq_false_iff_not] at h1 h2
    exact BitVec.eq_of_toNat_eq (by omega)
  have : p = q := by
    clear hm h
    induction pairs with
    | nil => cases hp
    | cons x l ih =>
      rw [List.map_cons, List.nodup_cons] at hd
      rcases List.mem_cons.1 hp with hp2 | hp2
      · rcases List.mem_cons.1 hq with hq2 | hq2
        · rw [hp2, hq2]
        · exact absurd (List.mem_map.2 ⟨q, hq2, by rw [← hp2]; exact hk.symm⟩) hd.1
      · rcases List.mem_cons.1 hq with hq2 | hq2
        · exact absurd (List.mem_map.2 ⟨p, hp2, by rw [← hq2]; exact hk⟩) hd.1
        · exact ih hd.2 hp2 hq2
  rw [this]

/-- Example: two fields in both orders, with the hash function that records its inputs
only roughly (their total length). -/
example (x y : Item) :
    uuidFromFields (⟨0, fun d n => n * 31 + d.length, fun n => BitVec.ofNat 128 n⟩ : HashFn Nat)
      [] [(chars ['a'], x), (chars ['b'], y)] .default =
    uuidFromFields ⟨0, fun d n => n * 31 + d.length, fun n => BitVec.ofNat 128 n⟩
      [] [(chars ['b'], y), (chars ['a'], x)] .default :=
  (C35_field_order _ (List.Perm.swap _ _ _) (by simp [chars]) [] .default [] []).1

theorem commonSize_some (fields : List (Bytes × List Item)) (n : Nat) :
    commonSize fields (some n) =
      if (∀ f ∈ fields, f.2.length = n) then .ok (some n) else .error () := by
  induction fields with
  | nil => simp [commonSize]
  | cons f rest ih =>
    unfold commonSize
    by_cases h : f.2.length = n
    · simp only [h, ne_eq, not_true_eq_false, if_false, List.mem_cons, forall_eq_or_imp, true_and]
      exact ih
    · simp [h]

/-- The item of every field at one position. -/
def row (fields : List (Bytes × List Item)) (i : Nat) : List (Bytes × Item) :=
  fields.map (fun f => (f.1, f.2.getD i .missing))

/-- With no field the slice is empty. With slices of one size there is one id for every
position, and it is the id of the items at that position. With slices of different sizes
there is an error. -/
theorem C35_slice_is_pointwise (seed : Bytes) (type : UuidType) :
    uuidFromFieldsSlice H seed [] type = .ok [] ∧
    (∀ (fields : List (Bytes × List Item)) (n : Nat), fields ≠ [] →
      (∀ f ∈ fields, f.2.length = n) →
      ∃ ids, uuidFromFieldsSlice H seed fields type = .ok ids ∧ ids.length = n ∧
        ∀ i, i < n → ids[i]? = some (uuidFromFields H seed (row fields i) type)) ∧
    (∀ fields : List (Bytes × List Item),
      (∃ f ∈ fields, ∃ g ∈ fields, f.2.length ≠ g.2.length) →
      uuidFromFieldsSlice H seed fields type = .error ()) := by
  refine ⟨rfl, ?_, ?_⟩
  · intro fields n hne hlen
    cases hf : fields with
    | nil => exact absurd hf hne
    | cons f rest =>
      rw [← hf]
      have hc : commonSize fields none = .ok (some n) := by
        rw [hf]
        unfold commonSize
        rw [commonSize_some]
        have h1 : f.2.length = n := hlen f (by rw [hf]; exact List.mem_cons_self)
        rw [h1, if_pos]
        intro g hg
        exact hlen g (by rw [hf]; exact List.mem_cons_of_mem _ hg)
      have hat : ∀ i, uuidAt H seed (sortBy nameLt fields) type i =
          uuidFromFields H seed (row fields i) type := by
        intro i
        unfold uuidAt uuidFromFields fingerprintFromFields sortedFingerprints row
        rw [List.map_map]
        rw [sortBy_map (β := Bytes × BitVec 128) nameLt nameLt
          ((fun f : Bytes × Item => (f.1, stableFingerprint H f.2)) ∘
            fun f : Bytes × List Item => (f.1, f.2.getD i .missing)) (fun a b => rfl)]
        rfl
      unfold uuidFromFieldsSlice
      rw [hc]
      cases n with
      | zero => exact ⟨[], rfl, rfl, fun i hi => absurd hi (by omega)⟩
      | succ n =>
        refine ⟨_, rfl, by simp, ?_⟩
        intro i hi
        rw [List.getElem?_map, List.getElem?_range hi, Option.map_some, hat]
  · rintro fields ⟨f, hf, g, hg, hne⟩
    cases fields with
    | nil => cases hf
    | cons x rest =>
      unfold uuidFromFieldsSlice commonSize
      rw [commonSize_some, if_neg]
      intro hall
      have h1 : ∀ y ∈ x :: rest, y.2.length = x.2.length := by
        intro y hy
        rcases List.mem_cons.1 hy with rfl | hy
        · rfl
        · exact hall y hy
      exact hne ((h1 f hf).trans (h1 g hg).symm)

/-- Example: two slices of length 2. -/
example (a b c d : Item) : ∃ ids,
    uuidFromFieldsSlice H [] [(chars ['x'], [a, b]), (chars ['y'], [c, d])] .default = .ok ids ∧
      ids.length = 2 := by
  obtain ⟨ids, h1, h2, _⟩ := (C35_slice_is_pointwise H [] .default).2.1
    [(chars ['x'], [a, b]), (chars ['y'], [c, d])] 2 (by simp) (by simp)
  exact ⟨ids, h1, h2⟩

/-- Missing items do not change an aggregated id. -/
theorem C35_agg_ignores_missing (items : List Item) :
    aggUuid H items = aggUuid H (items.filter (fun x => x ≠ .missing)) := by
  unfold aggUuid
  rw [List.filter_filter]
  simp

/-- The aggregated id of a group without present items is the id of no fields. -/
theorem C35_agg_of_empty_group (items : List Item) (h : ∀ x ∈ items, x = .missing) :
    aggUuid H items = uuidFromFields H [] [] .default := by
  rw [C35_agg_ignores_missing]
  have : items.filter (fun x => x ≠ .missing) = [] := by
    rw [List.filter_eq_nil_iff]
    intro x hx
    simp [h x hx]
  rw [this]
  unfold aggUuid uuidFromFields fingerprintFromFields sortedFingerprints hashAgg hashKwargs
  simp [sortBy]

/-! ### C36: items -/

/-- The new id of a main object has the given flag, the main object's place in its
allocation, and an allocation of the same capacity. Ids other than objects are refused,
missing ones stay missing. -/
theorem C36_keeps_place (flag : BitVec 6) (salt : Bytes) :
    (∀ o, ∃ p, uuidWithMain H flag salt (.object o) = .ok (.object p) ∧
      p.metadata = flag ∧ p.offset = o.offset ∧
      (AllocationId.ofObject p).capacity = (AllocationId.ofObject o).capacity) ∧
    uuidWithMain H flag salt .missing = .ok .missing ∧
    (∀ x, x ≠ .missing → (∀ o, x ≠ .object o) → uuidWithMain H flag salt x = .error ()) := by
  refine ⟨fun o => ⟨_, rfl, rfl, main_offset _ _ _, rfl⟩, rfl, ?_⟩
  intro x h1 h2
  cases x
  case missing => exact absurd rfl h1
  case object o => exact absurd rfl (h2 o)
  all_goals rfl

/-- Main objects of one allocation give ids of one allocation, and different ones
give different ids. -/
theorem C36_keeps_allocations (flag : BitVec 6) (salt : Bytes) (o p o' p' : ObjectId)
    (ho : uuidWithMain H flag salt (.object o) = .ok (.object o'))
    (hp : uuidWithMain H flag salt (.object p) = .ok (.object p'))
    (h : AllocationId.ofObject o = AllocationId.ofObject p) :
    AllocationId.ofObject o' = AllocationId.ofObject p' ∧ (o' = p' ↔ o = p) := by
  cases ho
  cases hp
  have ha : AllocationId.ofObject (computeUuObjId H flag salt o) =
      AllocationId.ofObject (computeUuObjId H flag salt p) := by
    unfold computeUuObjId
    rw [h]
    exact main_alloc flag o p _ h
  refine ⟨ha, ?_, ?_⟩
  · intro e
    have hoff : o.offset = p.offset := by
      have := congrArg ObjectId.offset e
      unfold computeUuObjId at this
      rwa [main_offset, main_offset] at this
    rw [← objectByOffset_offset o, ← objectByOffset_offset p, h, hoff]
  · rintro rfl
    rfl

/-- The id of a main object is made of the hash of the salt and the allocation, and of
nothing else but the flag, the offset and the capacity. -/
theorem C36_is_hash_of_inputs (flag : BitVec 6) (salt : Bytes) (o : ObjectId) :
    uuidWithMain H flag salt (.object o) = .ok (.object (createUuidWithMainObject flag o
      (H.finish (H.over (mainInputs (AllocationId.ofObject o) salt))))) := by
  show Except.ok (Item.object (computeUuObjId H flag salt o)) = _
  unfold computeUuObjId mainFingerprint mainInputs
  rw [over_new, over_string, over_alloc]

/-- Different allocations or salts give the hash function different inputs. -/
theorem C36_inputs_differ (a b : AllocationId) (salt salt' : Bytes)
    (h : mainInputs a salt = mainInputs b salt') : a = b ∧ salt = salt' := by
  rw [record_main, record_main] at h
  simp only [List.cons.injEq, and_true, true_and] at h
  refine ⟨?_, h.2.1⟩
  have := idBytes_inj h.2.2
  cases a
  cases b
  simp only at this
  rw [this]

/-! ### C36: slices -/

/-- The set of allocations of a slice accounts for all its ids. -/
def Covers (ids : List (Option ObjectId)) (allocs : AllocationIdSet) : Prop :=
  ∀ o, some o ∈ ids →
    (Small (AllocationId.ofObject o) ∧ allocs.containsSmall = true) ∨
      (¬ Small (AllocationId.ofObject o) ∧ AllocationId.ofObject o ∈ allocs.ids)

theorem isSmall_ofObject (o : ObjectId) : (AllocationId.ofObject o).isSmall = o.isSmallAlloc := rfl

theorem small_compute (flag : BitVec 6) (salt : Bytes) (o : ObjectId) :
    (computeUuObjId H flag salt o).isSmallAlloc = o.isSmallAlloc := rfl

/-- The shortcut through the allocation gives the id of the object. -/
theorem compute_via_alloc (flag : BitVec 6) (salt : Bytes) (o : ObjectId) :
    (AllocationId.ofObject (computeUuObjId H flag salt
      ((AllocationId.ofObject o).objectByOffset 0))).objectByOffset o.offset =
        computeUuObjId H flag salt o := by
  rw [objectByOffset_zero]
  have h := ofObject_raw o
  have h1 : AllocationId.ofObject (computeUuObjId H flag salt (AllocationId.ofObject o).raw) =
      AllocationId.ofObject (computeUuObjId H flag salt o) := by
    unfold computeUuObjId
    rw [h]
    exact main_alloc _ _ _ _ h
  rw [h1]
  have h2 : (computeUuObjId H flag salt o).offset = o.offset := main_offset _ _ _
  rw [← h2]
  exact objectByOffset_offset _

theorem findAlloc_map (f : AllocationId → AllocationId) (a : AllocationId)
    (as : List AllocationId) (h : a ∈ as) : findAlloc a (as.map (fun a => (a, f a))) = some (f a) := by
  induction as with
  | nil => cases h
  | cons b as ih =>
    rw [List.map_cons]
    unfold findAlloc
    by_cases hb : b = a
    · rw [if_pos hb, hb]
    · rw [if_neg hb]
      exact ih ((List.mem_cons.1 h).resolve_left (fun e => hb e.symm))

theorem insertAll_spec (l : List AllocationId) (s : AllocationIdSet) (hw : WF s)
    (hl : ∀ a ∈ l, a.isSmall = false) :
    ∃ s', insertAll s l = some s' ∧ WF s' ∧ s'.containsSmall = s.containsSmall ∧
      ∀ x, x ∈ s'.ids ↔ x ∈ s.ids ∨ x ∈ l := by
  induction l generalizing s with
  | nil => exact ⟨s, rfl, hw, rfl, by simp⟩
  | cons a l ih =>
    obtain ⟨s1, b, e, hw1, _, hs, hm⟩ := insert_spec s hw a
    obtain ⟨s2, e2, hw2, hs2, hm2⟩ := ih s1 hw1 (fun x hx => hl x (List.mem_cons_of_mem _ hx))
    have ha := hl a List.mem_cons_self
    refine ⟨s2, ?_, hw2, ?_, ?_⟩
    · unfold insertAll
      rw [e]
      exact e2
    · rw [hs2, Bool.eq_iff_iff, hs, ha]
      simp
    · intro x
      rw [hm2, hm, List.mem_cons]
      simp [ha, or_assoc]

theorem mapM_some {α β : Type} (f : α → Option β) (g : α → β) (l : List α)
    (h : ∀ a ∈ l, f a = some (g a)) : l.mapM f = some (l.map g) := by
  induction l with
  | nil => rfl
  | cons a l ih =>
    rw [List.mapM_cons, h a List.mem_cons_self, ih (fun b hb => h b (List.mem_cons_of_mem _ hb))]
    rfl

/-- A slice of main objects whose set of allocations accounts for its ids gives, at
every position, what the item at that position gives. The new set of allocations accounts
for the new ids, and consists of the images of the allocations. -/
theorem C36_slice_is_pointwise (flag : BitVec 6) (salt : Bytes) (ids : List (Option ObjectId))
    (e : SetExpr) (allocs : AllocationIdSet) (he : e.eval = some allocs)
    (hc : Covers ids allocs) :
    ∃ ids' allocs', uuidWithMainSlice H flag salt (.objects ids allocs) =
        some (.ok (.objects ids' allocs')) ∧
      ids'.length = ids.length ∧
      (∀ i : Nat, ids[i]? = some none → ids'[i]? = some none) ∧
      (∀ (i : Nat) (o : ObjectId), ids[i]? = some (some o) →
        ∃ p, ids'[i]? = some (some p) ∧
          uuidWithMain H flag salt (.object o) = .ok (.object p)) ∧
      Covers ids' allocs' ∧
      allocs'.containsSmall = allocs.containsSmall ∧
      (∀ x, x ∈ allocs'.ids ↔ ∃ a ∈ allocs.ids, ∃ p,
        uuidWithMain H flag salt (.object a.raw) = .ok (.object p) ∧
          x = AllocationId.ofObject p) := by
  obtain ⟨s0, he0, hw, _, _⟩ := eval_spec e
  rw [he] at he0
  cases he0
  -- it is enough to compute the ids and the set
  have main : ∃ allocs', uuidWithMainSlice H flag salt (.objects ids allocs) =
        some (.ok (.objects (ids.map (Option.map (computeUuObjId H flag salt))) allocs')) ∧
      allocs'.containsSmall = allocs.containsSmall ∧
      ∀ x, x ∈ allocs'.ids ↔ ∃ a ∈ allocs.ids,
        x = AllocationId.ofObject (computeUuObjId H flag salt (a.objectByOffset 0)) := by
    have general : ∃ allocs', ((insertAll (.ofBool allocs.containsSmall) (allocs.ids.map fun a =>
          AllocationId.ofObject (computeUuObjId H flag salt (a.objectByOffset 0)))).bind
            fun finalSet => (ids.mapM (uuidWithMainElement H flag salt (allocs.ids.map fun a =>
              (a, AllocationId.ofObject (computeUuObjId H flag salt (a.objectByOffset 0)))))).map
                fun r => (.ok (.objects r finalSet) : Except Unit MainSlice)) =
          some (.ok (.objects (ids.map (Option.map (computeUuObjId H flag salt))) allocs')) ∧
        allocs'.containsSmall = allocs.containsSmall ∧
        ∀ x, x ∈ allocs'.ids ↔ ∃ a ∈ allocs.ids,
          x = AllocationId.ofObject (computeUuObjId H flag salt (a.objectByOffset 0)) := by
      obtain ⟨s', e1, _, e2, e3⟩ := insertAll_spec (allocs.ids.map fun a =>
          AllocationId.ofObject (computeUuObjId H flag salt (a.objectByOffset 0)))
        (.ofBool allocs.containsSmall) (wf_ofBool _) (by
          intro x hx
          rw [List.mem_map] at hx
          obtain ⟨a, ha, rfl⟩ := hx
          exact hw.big a ha)
      refine ⟨s', ?_, e2, ?_⟩
      · rw [e1, Option.bind_some, mapM_some _ (Option.map (computeUuObjId H flag salt))]
        · rfl
        · intro x hx
          cases x with
          | none => rfl
          | some o =>
            unfold uuidWithMainElement
            rcases hc o hx with ⟨hs, _⟩ | ⟨hs, hm⟩
            · rw [← small_iff, isSmall_ofObject] at hs
              simp only [hs, if_true]
              rfl
            · rw [← big_iff, isSmall_ofObject] at hs
              simp only [hs, Bool.false_eq_true, if_false]
              rw [findAlloc_map _ _ _ hm, Option.map_some, compute_via_alloc]
              rfl
      · intro x
        rw [e3, List.mem_map]
        constructor
        · rintro (h | ⟨a, ha, rfl⟩)
          · simp [AllocationIdSet.ofBool] at h
          · exact ⟨a, ha, rfl⟩
        · rintro ⟨a, ha, rfl⟩
          exact Or.inr ⟨a, ha, rfl⟩
    unfold uuidWithMainSlice
    simp only
    split
    · next a hs ha =>
      refine ⟨.ofId (AllocationId.ofObject (computeUuObjId H flag salt (a.objectByOffset 0))),
        ?_, ?_, ?_⟩
      rotate_left
      · unfold AllocationIdSet.ofId
        rw [hs]
        exact hw.big a (by rw [ha]; exact List.mem_cons_self)
      · have hb : (AllocationId.ofObject (computeUuObjId H flag salt
            (a.objectByOffset 0))).isSmall = false :=
          hw.big a (by rw [ha]; exact List.mem_cons_self)
        intro x
        unfold AllocationIdSet.ofId
        rw [hb, ha]
        simp
      · have hl : ids.map (Option.map (fun o => (AllocationId.ofObject (computeUuObjId H flag salt
            (a.objectByOffset 0))).objectByOffset o.offset)) =
            ids.map (Option.map (computeUuObjId H flag salt)) := ?_
        · rw [hl]
        apply List.map_congr_left
        intro x hx
        cases x with
        | none => rw [Option.map_none, Option.map_none]
        | some o =>
          rcases hc o hx with ⟨_, h⟩ | ⟨_, h⟩
          · rw [hs] at h
            cases h
          · rw [ha, List.mem_singleton] at h
            rw [Option.map_some, Option.map_some, ← h, compute_via_alloc]
    · exact general
  obtain ⟨allocs', h1, h2, h3⟩ := main
  refine ⟨_, allocs', h1, by simp, ?_, ?_, ?_, h2, ?_⟩
  · intro i hi
    rw [List.getElem?_map, hi]
    rfl
  · intro i o hi
    exact ⟨_, by rw [List.getElem?_map, hi]; rfl, rfl⟩
  · intro p hp
    rw [List.mem_map] at hp
    obtain ⟨x, hx, hxp⟩ := hp
    cases x with
    | none => cases hxp
    | some o =>
      rw [Option.map_some] at hxp
      cases hxp
      rcases hc o hx with ⟨hs, hm⟩ | ⟨hs, hm⟩
      · exact Or.inl ⟨hs, by rw [h2]; exact hm⟩
      · refine Or.inr ⟨hs, ?_⟩
        rw [h3]
        refine ⟨_, hm, ?_⟩
        rw [objectByOffset_zero]
        have h := ofObject_raw o
        unfold computeUuObjId
        rw [h]
        exact (main_alloc _ _ _ _ h).symm
  · intro x
    rw [h3]
    constructor
    · rintro ⟨a, ha, rfl⟩
      exact ⟨a, ha, _, rfl, by rw [objectByOffset_zero]⟩
    · rintro ⟨a, ha, p, hp, rfl⟩
      cases hp
      exact ⟨a, ha, by rw [objectByOffset_zero]⟩

/-- Slices of unknown type stay as they are, slices of other types are refused. -/
theorem C36_other_slices (flag : BitVec 6) (salt : Bytes) :
    (∀ n, uuidWithMainSlice H flag salt (.emptyUnknown n) = some (.ok (.emptyUnknown n))) ∧
      uuidWithMainSlice H flag salt .other = some (.error ()) := ⟨fun _ => rfl, rfl⟩

/-- Example: ids of two big allocations, a small id and a missing one. -/
example (flag : BitVec 6) (salt : Bytes) : ∃ r, uuidWithMainSlice H flag salt
    (.objects [some ⟨1, 3, 0, 10⟩, none, some ⟨1, 4, 0, 33⟩, some ⟨2, 0, 0, 5⟩]
      ⟨true, [⟨⟨1, 3, 0, 8⟩⟩, ⟨⟨1, 4, 0, 32⟩⟩], none⟩) = some (.ok r) := by
  obtain ⟨ids', allocs', h, _⟩ := C36_slice_is_pointwise H flag salt
    [some ⟨1, 3, 0, 10⟩, none, some ⟨1, 4, 0, 33⟩, some ⟨2, 0, 0, 5⟩]
    (.insertSmall (.ofSpan [⟨⟨1, 3, 0, 8⟩⟩, ⟨⟨1, 4, 0, 32⟩⟩]))
    ⟨true, [⟨⟨1, 3, 0, 8⟩⟩, ⟨⟨1, 4, 0, 32⟩⟩], none⟩ (by rfl) (by
      intro o ho
      simp only [List.mem_cons, Option.some.injEq, reduceCtorEq, List.not_mem_nil,
        or_false, false_or] at ho
      rcases ho with rfl | rfl | rfl
      · exact Or.inr ⟨by rw [← big_iff]; decide, by decide⟩
      · exact Or.inr ⟨by rw [← big_iff]; decide, by decide⟩
      · exact Or.inl ⟨by rw [← small_iff]; decide, rfl⟩)
  exact ⟨_, h⟩

/-! ### C48 -/

/-- `uuids_with_allocation_size` gives `size` different ids of one allocation, in the
order of their places, and the allocation is no larger than needed. -/
theorem C48_one_allocation (seed : Bytes) (size : BitVec 64) (h : size.toNat ≤ 2 ^ 63) :
    ∃ ids a, uuidsWithAllocationSize H seed size = ids ∧ ids.length = size.toNat ∧ ids.Nodup ∧
      (∀ (i : Nat) (o : ObjectId), ids[i]? = some o →
        AllocationId.ofObject o = a ∧ o.offset.toNat = i ∧ o.isUuid = true ∧ o.isEntity = true) ∧
      (1 ≤ size.toNat → ∃ b, a.capacity.toNat = 2 ^ b ∧ size.toNat ≤ 2 ^ b ∧
        ∀ k, size.toNat ≤ 2 ^ k → b ≤ k) := by
  have hex : ∃ o, allocateUuids (allocationSizeFingerprint H seed size) size =
      AllocationId.ofObject o ∧ o.offsetBits = offsetBitsFor size ∧ o.metadata = kUuidFlag :=
    ⟨_, rfl, rfl, rfl⟩
  obtain ⟨x, hx, hb, hmeta⟩ := hex
  have hcap : (AllocationId.ofObject x).capacity.toNat = 2 ^ (offsetBitsFor size).toNat := by
    rw [capacity_toNat, ofObject_offsetBits, hb]
  have hsize : 1 ≤ size.toNat → size.toNat ≤ 2 ^ (offsetBitsFor size).toNat :=
    fun h1 => (offsetBits_spec size h1 h).1
  have hin : ∀ i, i < size.toNat →
      (BitVec.ofNat 64 i).toNat < (AllocationId.ofObject x).capacity.toNat := by
    intro i hi
    have := hsize (by omega)
    rw [hcap, BitVec.toNat_ofNat, Nat.mod_eq_of_lt (by omega)]
    omega
  have hget : ∀ (i : Nat) (o : ObjectId), (uuidsWithAllocationSize H seed size)[i]? = some o →
      i < size.toNat ∧ o = (AllocationId.ofObject x).objectByOffset (BitVec.ofNat 64 i) := by
    intro i o ho
    unfold uuidsWithAllocationSize at ho
    simp only [List.getElem?_map, hx] at ho
    by_cases hi : i < size.toNat
    · rw [List.getElem?_range hi] at ho
      simp only [Option.map_some, Option.some.injEq] at ho
      exact ⟨hi, ho.symm⟩
    · rw [List.getElem?_eq_none (by simp; omega)] at ho
      cases ho
  have hplace : ∀ (i : Nat) (o : ObjectId), (uuidsWithAllocationSize H seed size)[i]? = some o →
      AllocationId.ofObject o = AllocationId.ofObject x ∧ o.offset.toNat = i ∧
        o.isUuid = true ∧ o.isEntity = true := by
    intro i o ho
    obtain ⟨hi, rfl⟩ := hget i o ho
    have hm := C32_offset_of_member x (BitVec.ofNat 64 i) (hin i hi)
    have hlt := size.isLt
    refine ⟨hm.2, ?_, ?_, ?_⟩
    · rw [hm.1, BitVec.toNat_ofNat, Nat.mod_eq_of_lt (by omega)]
    · show ((x.metadata &&& kUuidFlag) != 0) = true
      rw [hmeta]
      rfl
    · show ((x.metadata &&& ~~~kUuidFlag) == 0) = true
      rw [hmeta]
      rfl
  refine ⟨_, AllocationId.ofObject x, rfl, by simp [uuidsWithAllocationSize], ?_, hplace, ?_⟩
  · unfold List.Nodup
    rw [List.pairwise_iff_getElem]
    intro i j hi hj hij e
    have h1 := hplace i _ (List.getElem?_eq_getElem hi)
    have h2 := hplace j _ (List.getElem?_eq_getElem hj)
    rw [e] at h1
    omega
  · intro h1
    exact ⟨_, hcap, hsize h1, (offsetBits_spec size h1 h).2⟩

/-- Different seeds or sizes give the hash function different inputs. -/
theorem C48_inputs_differ (seed seed' : Bytes) (size size' : BitVec 64)
    (h : sizeInputs seed size = sizeInputs seed' size') : seed = seed' ∧ size = size' := by
  rw [record_size, record_size] at h
  simp only [List.cons.injEq, and_true, true_and] at h
  exact ⟨h.2.1, BitVec.eq_of_toNat_eq (leBytes_inj (n := 8) size.isLt size'.isLt h.2.2)⟩

/-- The allocation is made of the hash of these inputs. -/
theorem C48_is_hash_of_inputs (seed : Bytes) (size : BitVec 64) :
    uuidsWithAllocationSize H seed size = (List.range size.toNat).map (fun i =>
      (allocateUuids (H.finish (H.over (sizeInputs seed size))) size).objectByOffset
        (BitVec.ofNat 64 i)) := by
  unfold uuidsWithAllocationSize allocationSizeFingerprint sizeInputs
  rw [over_new, over_string, over_arith]

/-- Example: five ids need an allocation of eight. -/
example (seed : Bytes) : (uuidsWithAllocationSize H seed 5).length = 5 := by
  obtain ⟨_, _, rfl, h, _⟩ := C48_one_allocation H seed 5 (by decide)
  exact h

end Verif.Uuid
