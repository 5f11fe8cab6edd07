import Verif.Clone.Tracker

/-!
The new ids.
-/

namespace Verif.Clone

open Verif.ObjectId
open Verif.Uuid
open Verif.Traverse

/-- The new id of an id, the id itself when its allocation is not in the tracker. -/
def newId (t : Tracker) (o : ObjectId) : ObjectId := (tracked t o).getD o

section
variable {S : Type} {H : HashFn S} {alloc : Nat → BitVec 6 → BitVec 6 → AllocationId} {b : Bag}
  {N : Nat} {old : ObjectId → Prop} {st : State}

theorem ofObject_idem (o : ObjectId) :
    AllocationId.ofObject (AllocationId.ofObject o).raw = AllocationId.ofObject o := by
  rw [ofObject_eq_iff]
  refine ⟨rfl, ?_⟩
  exact ofObject_div o

theorem like_entry {t : Tracker} {n : Nat} {a v : AllocationId} (h : Entry H alloc b t n a v)
    (ha : a.raw.isSchema = false) : ∃ i, i < n ∧ v = newLike alloc i a := by
  cases h with
  | like i h1 _ => exact ⟨i, h1, rfl⟩
  | schemas i h1 h2 => rw [implicit_isSchema h2] at ha; cases ha
  | implicit x T w h1 h2 h3 h4 =>
    subst h3
    have := implicit_isSchema h2
    have h5 : (AllocationId.ofObject T).raw.isSchema = T.isSchema := rfl
    rw [h5, this] at ha
    cases ha

theorem entry_shape (hA : NewIds alloc N old)
    (hi : ∀ x T, b.attr x schemaAttrName = .object T → T.isImplicitSchema = true →
      T = implicitOf H x ∧ x.isSchema = false)
    (ht : TInv H alloc b N st) {a v : AllocationId} (h : findAlloc a st.tracker = some v) :
    AllocationId.ofObject v.raw = v ∧ v.raw.offsetBits = a.raw.offsetBits := by
  cases ht.entry a v h with
  | like i h1 _ => exact ⟨hA.base _ _ _, hA.bits _ _ _⟩
  | schemas i h1 h2 => exact ⟨hA.base _ _ _, hA.bits _ _ _⟩
  | implicit x T w h1 h2 h3 h4 =>
    refine ⟨ofObject_idem _, ?_⟩
    obtain ⟨h5, h6⟩ := hi x T h1 h2
    obtain ⟨i, _, h7⟩ := like_entry (ht.entry _ _ h4) h6
    subst h3
    show w.raw.offsetBits = T.offsetBits
    rw [h5, h7]
    exact hA.bits _ _ _

theorem newId_spec (hA : NewIds alloc N old)
    (hi : ∀ x T, b.attr x schemaAttrName = .object T → T.isImplicitSchema = true →
      T = implicitOf H x ∧ x.isSchema = false)
    (ht : TInv H alloc b N st) {o : ObjectId} {v : AllocationId}
    (h : findAlloc (AllocationId.ofObject o) st.tracker = some v) :
    newId st.tracker o = v.objectByOffset o.offset ∧
      AllocationId.ofObject (newId st.tracker o) = v ∧ (newId st.tracker o).offset = o.offset := by
  obtain ⟨h1, h2⟩ := entry_shape hA hi ht h
  have h3 : newId st.tracker o = v.objectByOffset o.offset := by
    unfold newId tracked
    rw [h]
    rfl
  have h4 := C32_offset_of_member v.raw o.offset (by
    rw [capacity_toNat, ofObject_offsetBits, h2]
    exact offset_lt o)
  rw [h1] at h4
  exact ⟨h3, by rw [h3]; exact h4.2, by rw [h3]; exact h4.1⟩

/-- Entries of different allocations are different. -/
theorem entry_inj (hA : NewIds alloc N old) (hN : st.count ≤ N)
    (hC : NoCollision H alloc N b old)
    (hi : ∀ x T, b.attr x schemaAttrName = .object T → T.isImplicitSchema = true →
      T = implicitOf H x ∧ x.isSchema = false)
    (ht : TInv H alloc b N st) {a a' v : AllocationId} (h : findAlloc a st.tracker = some v)
    (h' : findAlloc a' st.tracker = some v) : a = a' := by
  have hnum : (∃ i m k, i < st.count ∧ m ≠ kUuidImplicitSchemaFlag ∧ v = alloc i m k) → a = a' :=
    fun hn => ht.sep hN a a' v h h' hn
  have h0 := ht.entry a v h
  have h0' := ht.entry a' v h'
  generalize hv : v = v' at h0'
  cases h0 with
  | like i h1 _ => exact hnum (num_like h1)
  | schemas i h1 _ => exact hnum (num_schemas h1)
  | implicit x T w h1 h2 h3 h4 =>
    cases h0' with
    | like i h1 _ => exact hnum (hv ▸ num_like h1)
    | schemas i h1 _ => exact hnum (hv ▸ num_schemas h1)
    | implicit x' T' w' g1 g2 g3 g4 =>
      obtain ⟨h5, h6⟩ := hi x T h1 h2
      obtain ⟨g5, g6⟩ := hi x' T' g1 g2
      obtain ⟨i, h7, h8⟩ := like_entry (ht.entry _ _ h4) h6
      obtain ⟨j, g7, g8⟩ := like_entry (ht.entry _ _ g4) g6
      have e1 := newId_spec hA hi ht h4
      have e2 := newId_spec hA hi ht g4
      have s1 : AllocationId.ofObject (implicitOf H (w.objectByOffset x.offset)) =
          AllocationId.ofObject (implicitOf H w.raw) := by
        refine (C36_keeps_allocations H kUuidImplicitSchemaFlag implicitSeed _ _ _ _ rfl rfl ?_).1
        rw [← e1.1, e1.2.1]
        exact (entry_shape hA hi ht h4).1.symm
      have s2 : AllocationId.ofObject (implicitOf H (w'.objectByOffset x'.offset)) =
          AllocationId.ofObject (implicitOf H w'.raw) := by
        refine (C36_keeps_allocations H kUuidImplicitSchemaFlag implicitSeed _ _ _ _ rfl rfl ?_).1
        rw [← e2.1, e2.2.1]
        exact (entry_shape hA hi ht g4).1.symm
      rw [s1, s2, h8, g8] at hv
      have hw := hC.new i j x x' (by omega) (by omega)
        (by unfold HasImplicit; rw [named_schema, h1, h5])
        (by unfold HasImplicit; rw [named_schema, g1, g5]) hv
      have hww : w = w' := by rw [h8, g8]; exact hw
      subst hww
      have hx := ht.sep hN _ _ _ h4 g4 (by rw [h8]; exact num_like h7)
      rw [h3, g3, h5, g5]
      exact (C36_keeps_allocations H kUuidImplicitSchemaFlag implicitSeed _ _ _ _ rfl rfl hx).1

theorem newId_inj (hA : NewIds alloc N old) (hN : st.count ≤ N)
    (hC : NoCollision H alloc N b old)
    (hi : ∀ x T, b.attr x schemaAttrName = .object T → T.isImplicitSchema = true →
      T = implicitOf H x ∧ x.isSchema = false)
    (ht : TInv H alloc b N st) {x y : ObjectId}
    (hx : findAlloc (AllocationId.ofObject x) st.tracker ≠ none)
    (hy : findAlloc (AllocationId.ofObject y) st.tracker ≠ none)
    (h : newId st.tracker x = newId st.tracker y) : x = y := by
  obtain ⟨v, hv⟩ := Option.ne_none_iff_exists'.mp hx
  obtain ⟨w, hw⟩ := Option.ne_none_iff_exists'.mp hy
  have e1 := newId_spec hA hi ht hv
  have e2 := newId_spec hA hi ht hw
  have hvw : v = w := by rw [← e1.2.1, ← e2.2.1, h]
  subst hvw
  have ha := entry_inj hA hN hC hi ht hv hw
  have ho : x.offset = y.offset := by rw [← e1.2.2, ← e2.2.2, h]
  rw [← (C32_id_is_allocation_and_offset x).2.2, ← (C32_id_is_allocation_and_offset y).2.2, ha, ho]

theorem newId_fresh (hA : NewIds alloc N old) (hN : st.count ≤ N)
    (hC : NoCollision H alloc N b old)
    (hi : ∀ x T, b.attr x schemaAttrName = .object T → T.isImplicitSchema = true →
      T = implicitOf H x ∧ x.isSchema = false)
    (ht : TInv H alloc b N st) {x : ObjectId}
    (hx : findAlloc (AllocationId.ofObject x) st.tracker ≠ none) : ¬ old (newId st.tracker x) := by
  obtain ⟨v, hv⟩ := Option.ne_none_iff_exists'.mp hx
  have e1 := newId_spec hA hi ht hv
  intro ho
  have hent := ht.entry _ _ hv
  generalize hvw : v = v' at hent
  cases hent with
  | like i h1 _ => exact hA.new i _ _ _ (by omega) ho (by rw [e1.2.1, hvw]; rfl)
  | schemas i h1 _ => exact hA.new i _ _ _ (by omega) ho (by rw [e1.2.1, hvw]; rfl)
  | implicit y T w h1 h2 h3 h4 =>
    obtain ⟨h5, h6⟩ := hi y T h1 h2
    obtain ⟨i, h7, h8⟩ := like_entry (ht.entry _ _ h4) h6
    have e2 := newId_spec hA hi ht h4
    have s1 : AllocationId.ofObject (implicitOf H (w.objectByOffset y.offset)) =
        AllocationId.ofObject (implicitOf H w.raw) := by
      refine (C36_keeps_allocations H kUuidImplicitSchemaFlag implicitSeed _ _ _ _ rfl rfl ?_).1
      rw [← e2.1, e2.2.1]
      exact (entry_shape hA hi ht h4).1.symm
    refine hC.apart i y _ (by omega) (by unfold HasImplicit; rw [named_schema, h1, h5]) ho ?_
    rw [e1.2.1, hvw, s1, h8]
    rfl

theorem newId_kind (hA : NewIds alloc N old)
    (hi : ∀ x T, b.attr x schemaAttrName = .object T → T.isImplicitSchema = true →
      T = implicitOf H x ∧ x.isSchema = false)
    (ht : TInv H alloc b N st) {x : ObjectId}
    (hx : findAlloc (AllocationId.ofObject x) st.tracker ≠ none) (hs : x.isSchema = false) :
    (newId st.tracker x).metadata = x.metadata &&& ~~~kUuidFlag ∧
      (newId st.tracker x).offset = x.offset := by
  obtain ⟨v, hv⟩ := Option.ne_none_iff_exists'.mp hx
  have e1 := newId_spec hA hi ht hv
  refine ⟨?_, e1.2.2⟩
  obtain ⟨i, h7, h8⟩ := like_entry (ht.entry _ _ hv) hs
  rw [e1.1, h8]
  exact hA.kind _ _ _

theorem newId_together (hA : NewIds alloc N old)
    (hi : ∀ x T, b.attr x schemaAttrName = .object T → T.isImplicitSchema = true →
      T = implicitOf H x ∧ x.isSchema = false)
    (ht : TInv H alloc b N st) {x y : ObjectId}
    (hx : findAlloc (AllocationId.ofObject x) st.tracker ≠ none)
    (h : AllocationId.ofObject x = AllocationId.ofObject y) :
    AllocationId.ofObject (newId st.tracker x) = AllocationId.ofObject (newId st.tracker y) := by
  obtain ⟨v, hv⟩ := Option.ne_none_iff_exists'.mp hx
  have e1 := newId_spec hA hi ht hv
  have e2 := newId_spec hA hi ht (h ▸ hv)
  rw [e1.2.1, e2.2.1]

theorem newId_implicit (hA : NewIds alloc N old)
    (hC : NoCollision H alloc N b old) (hn : schemaAttrName = named "__schema__")
    (hi : ∀ x T, b.attr x schemaAttrName = .object T → T.isImplicitSchema = true →
      T = implicitOf H x ∧ x.isSchema = false)
    (ht : TInv H alloc b N st) {t0 : Tracker} (h0 : Implicits H b t0) (hg : Grows t0 st.tracker)
    {x T : ObjectId} (hx : b.attr x schemaAttrName = .object T) (hT : T.isImplicitSchema = true)
    (hxt : findAlloc (AllocationId.ofObject x) st.tracker ≠ none)
    (hTt : findAlloc (AllocationId.ofObject T) t0 ≠ none) :
    newId st.tracker T = implicitOf H (newId st.tracker x) := by
  obtain ⟨v, hv⟩ := Option.ne_none_iff_exists'.mp hTt
  obtain ⟨vx, hvx⟩ := Option.ne_none_iff_exists'.mp hxt
  obtain ⟨y, T', w, h1, h2, h3, h4, h5⟩ := h0 _ _ hv (by exact hT)
  obtain ⟨a1, a2⟩ := hi x T hx hT
  obtain ⟨b1, b2⟩ := hi y T' h1 h2
  have hxy : AllocationId.ofObject x = AllocationId.ofObject y := by
    refine hC.objects x y ?_ ?_ ?_
    · unfold HasImplicit; rw [← hn, hx, a1]
    · unfold HasImplicit; rw [← hn, h1, b1]
    · rw [← a1, ← b1, h3]
  have hw := hg _ _ h4
  rw [hxy, hw] at hvx
  cases hvx
  have e1 := newId_spec hA hi ht (hg _ _ hv)
  have e2 := newId_spec hA hi ht (o := x) (hxy ▸ hw)
  have e3 := newId_spec hA hi ht hw
  have s1 : v = AllocationId.ofObject (implicitOf H (newId st.tracker x)) := by
    rw [h5]
    refine (C36_keeps_allocations H kUuidImplicitSchemaFlag implicitSeed _ _ _ _ rfl rfl ?_).1
    rw [← e3.1, e3.2.1, e2.2.1]
  have off : ∀ o, (implicitOf H o).offset = o.offset := by
    intro o
    obtain ⟨p, h6, _, h7, _⟩ := (C36_keeps_place H kUuidImplicitSchemaFlag implicitSeed).1 o
    cases h6
    exact h7
  rw [e1.1, s1]
  have := (C32_id_is_allocation_and_offset (implicitOf H (newId st.tracker x))).2.2
  rw [off, e2.2.2] at this
  rw [a1, off]
  exact this

end

end Verif.Clone
